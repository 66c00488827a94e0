import Verif.Proofs.LigLexer
/-!
# The `lig` crate: C66
-/
namespace Verif
namespace Props
open Lig

theorem lig_run (s : Str) :
    (∃ ts, Reads [] s ts [] ∧ Lig.tokenize s = .ok ts) ∨
    (∃ ts rest, Reads [] s ts rest ∧ rest ≠ [] ∧ NoMatch rest ∧ Lig.tokenize s = .err (lit "Error tokenizing input.")) ∨
    (∃ ts rest m, Reads [] s ts rest ∧ Best rest .name m ∧ Lig.tokenize s = .panic) := by
  have := loop_run s.length s.length [] s [] (Nat.le_refl _) (Nat.le_refl _)
  simp only [List.nil_append] at this
  exact this

theorem halts_nil : Halts [] := .inl noMatch_nil

/-- C66: success means exactly that the whole script is read as longest matches without a name, each token with its byte offset. -/
theorem C66_tokens (script : Str) (ts : List (Lig.Token × Nat)) : Lig.tokenize script = .ok ts ↔ Reads [] script ts [] := by
  rcases lig_run script with ⟨ts', hr, e⟩ | ⟨ts', rest, hr, hne, hn, e⟩ | ⟨ts', rest, m, hr, hb, e⟩
  · rw [e]
    exact ⟨fun h => (by cases h; exact hr), fun h => by rw [(reads_unique h halts_nil hr halts_nil).1]⟩
  · rw [e]
    exact ⟨fun h => (by cases h), fun h => absurd (reads_unique h halts_nil hr (.inl hn)).2.symm hne⟩
  · rw [e]
    refine ⟨fun h => (by cases h), fun h => ?_⟩
    have := (reads_unique h halts_nil hr (.inr ⟨m, hb⟩)).2
    subst this
    exact (best_noMatch hb noMatch_nil).elim

/-- C66: an error means exactly that some longest matches without a name leave text at which nothing matches. -/
theorem C66_error (script m : Str) :
    Lig.tokenize script = .err m ↔
      m = lit "Error tokenizing input." ∧ ∃ ts rest, Reads [] script ts rest ∧ rest ≠ [] ∧ NoMatch rest := by
  rcases lig_run script with ⟨ts', hr, e⟩ | ⟨ts', rest, hr, hne, hn, e⟩ | ⟨ts', rest, k, hr, hb, e⟩
  · rw [e]
    refine ⟨fun h => (by cases h), fun ⟨_, ts, rest, h, hne, hn⟩ => ?_⟩
    exact absurd (reads_unique h (.inl hn) hr halts_nil).2 hne
  · rw [e]
    exact ⟨fun h => (by cases h; exact ⟨rfl, ts', rest, hr, hne, hn⟩), fun h => by rw [h.1]⟩
  · rw [e]
    refine ⟨fun h => (by cases h), fun ⟨_, ts, rest', h, hne, hn⟩ => ?_⟩
    have := (reads_unique h (.inl hn) hr (.inr ⟨k, hb⟩)).2
    subst this
    exact (best_noMatch hb hn).elim

/-- C66: two forms never fit at the same position, so nothing depends on how ties would be resolved. -/
theorem C66_no_ties (k k' : Lig.Kind) (s : Str) (m m' : Nat) (h : Lig.Fits k (s.take m)) (h' : Lig.Fits k' (s.take m')) : k = k' :=
  Lig.kind_unique h h'

example : Lig.Fits .comment ((lit "-- x (").take 4) ∧ Lig.Fits .comment ((lit "-- x (").take 6) :=
  ⟨⟨lit " x", by decide, .inl rfl⟩, ⟨lit " x (", by decide, .inl rfl⟩⟩

/-- C66: the tokenizer panics exactly when the first thing that is not another token is a name: no script with a name can be read. -/
theorem C66_names_panic (script : Str) :
    Lig.tokenize script = .panic ↔ ∃ ts rest n, Reads [] script ts rest ∧ Best rest .name n := by
  rcases lig_run script with ⟨ts', hr, e⟩ | ⟨ts', rest, hr, hne, hn, e⟩ | ⟨ts', rest, k, hr, hb, e⟩
  · rw [e]
    refine ⟨fun h => (by cases h), fun ⟨ts, rest, n, h, hb⟩ => ?_⟩
    have := (reads_unique h (.inr ⟨n, hb⟩) hr halts_nil).2
    subst this
    exact (best_noMatch hb noMatch_nil).elim
  · rw [e]
    refine ⟨fun h => (by cases h), fun ⟨ts, rest', n, h, hb⟩ => ?_⟩
    have := (reads_unique h (.inr ⟨n, hb⟩) hr (.inl hn)).2
    subst this
    exact (best_noMatch hb hn).elim
  · rw [e]
    exact ⟨fun _ => ⟨ts', rest, k, hr, hb⟩, fun _ => rfl⟩

theorem reads_offsets {pre s rest : Str} {ts : List (Lig.Token × Nat)} (h : Reads pre s ts rest) :
    ∀ a t p b, ts = a ++ (t, p) :: b →
      p = (String.ofList (pre ++ a.flatMap (fun q => Lig.tokenText q.1))).utf8ByteSize := by
  induction h with
  | stop => intro a t p b e; simp at e
  | @step pre s k n t ts rest hb hd hr ih =>
    intro a t' p b e
    cases a with
    | nil => cases e; simp
    | cons q a =>
      simp only [List.cons_append, List.cons.injEq] at e
      obtain ⟨rfl, rfl⟩ := e
      obtain ⟨t', _, h2, h3⟩ := mkToken_denotes hb.2.2.1 (denotes_not_name hd)
      rw [denotes_unique h2 hd] at h3
      have := ih a _ p b rfl
      rw [this, List.flatMap_cons, h3, List.append_assoc]

/-- C66: nothing is lost, and the offset of each token is the number of UTF-8 bytes of the script before its text. -/
theorem C66_lossless (script : Str) (ts : List (Lig.Token × Nat)) (h : Lig.tokenize script = .ok ts) :
    script = ts.flatMap (fun q => Lig.tokenText q.1) ∧
    ∀ a t p b, ts = a ++ (t, p) :: b →
      ∃ before after, script = before ++ Lig.tokenText t ++ after ∧ p = (String.ofList before).utf8ByteSize ∧
        before = a.flatMap (fun q => Lig.tokenText q.1) ∧ after = b.flatMap (fun q => Lig.tokenText q.1) := by
  have hr := (C66_tokens script ts).mp h
  have ht : script = ts.flatMap (fun q => Lig.tokenText q.1) := by simpa using reads_text hr
  refine ⟨ht, fun a t p b e => ⟨_, _, ?_, ?_, rfl, rfl⟩⟩
  · rw [ht, e]; simp
  · simpa using reads_offsets hr a t p b e

/-- C66: the filtered tokenizer gives the same tokens at the same offsets, without white space and comments; it fails and panics when
the other one does. -/
theorem C66_filter (script : Str) :
    (∀ ts, Lig.tokenizeAndFilter script = .ok ts ↔ ∃ all, Lig.tokenize script = .ok all ∧
      ts = all.filter fun q => match q.1 with | .ws _ => false | .comment _ => false | _ => true) ∧
    (∀ m, Lig.tokenizeAndFilter script = .err m ↔ Lig.tokenize script = .err m) ∧
    (Lig.tokenizeAndFilter script = .panic ↔ Lig.tokenize script = .panic) := by
  have hs : Lig.significant = fun q => match q.1 with | .ws _ => false | .comment _ => false | _ => true := by
    funext q; rcases q with ⟨t, p⟩; cases t <;> rfl
  unfold Lig.tokenizeAndFilter
  rw [hs]
  cases Lig.tokenize script with
  | ok all => simp [Res.map, eq_comm]
  | err m => simp [Res.map]
  | panic => simp [Res.map]

/-- C66: the second tokenizer of the crate gives the same tokens without offsets. -/
theorem C66_read_tokenize (script : Str) :
    (∀ ts, Lig.readTokenize script = .ok ts ↔ ∃ all, Lig.tokenize script = .ok all ∧ ts = all.map Prod.fst) ∧
    (∀ m, Lig.readTokenize script = .err m ↔ Lig.tokenize script = .err m) ∧
    (Lig.readTokenize script = .panic ↔ Lig.tokenize script = .panic) := by
  unfold Lig.readTokenize
  cases Lig.tokenize script with
  | ok all => simp [Res.map, eq_comm]
  | err m => simp [Res.map]
  | panic => simp [Res.map]

/-- C66: what `write` gives cannot be read back: `write` gives the empty text for every network and `read` panics on every text. -/
theorem C66_no_round_trip (n : Network) : Lig.write n = [] ∧ ∀ s, Lig.read s = .panic := ⟨rfl, fun _ => rfl⟩

def ligSample : Str := lit "{ \"é\\n\" }--é\n(\t)"

/-- The letter `é` counts two bytes. -/
example : Lig.tokenize ligSample = .ok [(.openBrace, 0), (.ws (lit " "), 1), (.string (lit "é\\n"), 2), (.ws (lit " "), 8),
    (.closeBrace, 9), (.comment (lit "--é\n"), 10), (.openParen, 15), (.ws (lit "\t"), 16), (.closeParen, 17)] := by decide +kernel
example : Lig.tokenizeAndFilter ligSample = .ok [(.openBrace, 0), (.string (lit "é\\n"), 2), (.closeBrace, 9), (.openParen, 15),
    (.closeParen, 17)] := by decide +kernel
/-- An error before a name comes first, a name before an error too. -/
example : Lig.tokenize (lit "(;a") = .err (lit "Error tokenizing input.") ∧ Lig.tokenize (lit "(a;") = .panic ∧
    Lig.tokenize (lit "\"a\"") = .ok [(.string (lit "a"), 0)] ∧ Lig.tokenize (lit "\"a") = .err (lit "Error tokenizing input.") ∧
    Lig.tokenize [] = .ok [] := by decide +kernel

end Props
end Verif

import Verif.Proofs.Host
import Verif.Proofs.HostFollow
import Verif.Props.Evaluator
import Verif.Props.ScriptsCross
/-!
# C74–C75: host commands that call back into the evaluator
-/
namespace Verif
namespace Props
open Spec EvalHost

variable {σ : Type u} {τ : Type v}

/-! ## C74 -/

/-- C74: running calls has at most one outcome, however deep the nesting needed. -/
theorem C74_deterministic (L : LigOps σ) (t : Table) (calls : List Call) (s : σ) (out out' : Res Value × σ)
    (h : Ends L t calls s out) (h' : Ends L t calls s out') : out = out' := by
  obtain ⟨n, h⟩ := h
  obtain ⟨m, h'⟩ := h'
  have a := runCalls_mono t (Nat.le_max_left n m) h
  have b := runCalls_mono t (Nat.le_max_right n m) h'
  rw [a] at b; cases b; rfl

/-- The calls, from a current result. -/
def EndsFrom (L : LigOps σ) (t : Table) (calls : List Call) (v : Value) (s : σ) (out : Res Value × σ) : Prop :=
  ∃ n, runCallsWith t (invoke L t n) calls v s = some out

theorem from_mono {L : LigOps σ} {t : Table} {n m : Nat} (hnm : n ≤ m) {calls : List Call} {v : Value} {s : σ} {out : Res Value × σ}
    (h : runCallsWith t (invoke L t n) calls v s = some out) : runCallsWith t (invoke L t m) calls v s = some out := by
  obtain ⟨r, s'⟩ := out
  obtain ⟨_, h1, rfl⟩ := runCallsWith_sim t (invoke_sim t (same_eq L) n m hnm) calls v s s rfl r s' h
  exact h1

theorem from_append {L : LigOps σ} {t : Table} {a b : List Call} {v : Value} {s : σ} {out : Res Value × σ} : EndsFrom L t (a ++ b) v s out ↔
    (∃ v1 s1, EndsFrom L t a v s (.ok v1, s1) ∧ EndsFrom L t b v1 s1 out) ∨ (EndsFrom L t a v s out ∧ ∀ v1, out.1 ≠ .ok v1) := by
  induction a generalizing v s with
  | nil =>
    constructor
    · intro h; exact .inl ⟨v, s, ⟨0, rfl⟩, h⟩
    · rintro (⟨v1, s1, ⟨n, h1⟩, h2⟩ | ⟨⟨n, h1⟩, h2⟩)
      · cases h1; exact h2
      · cases h1; exact absurd rfl (h2 v)
  | cons c cs ih =>
    have step : ∀ (l : List Call) (out : Res Value × σ), EndsFrom L t (c :: l) v s out ↔
        match t.get? c.name.text with
        | none => out = (.err (Eval.notFound c.name), s)
        | some cmd => ∃ r s1, (∃ n, invoke L t n cmd.fn c.args s = some (r, s1)) ∧
          ((∃ v1, r = .ok v1 ∧ EndsFrom L t l v1 s1 out) ∨ ((∀ v1, r ≠ .ok v1) ∧ out = (r, s1))) := by
      intro l out
      unfold EndsFrom
      simp only [runCallsWith]
      cases t.get? c.name.text with
      | none => simp only [Option.some.injEq, exists_const]; exact eq_comm
      | some cmd =>
        simp only
        constructor
        · rintro ⟨n, h⟩
          cases h1 : invoke L t n cmd.fn c.args s with
          | none => rw [h1] at h; cases h
          | some p =>
            obtain ⟨r, s1⟩ := p
            rw [h1] at h
            refine ⟨r, s1, ⟨n, h1⟩, ?_⟩
            cases r with
            | ok v1 => exact .inl ⟨v1, rfl, n, h⟩
            | err m => cases h; exact .inr ⟨(by intro v1 e; cases e), rfl⟩
            | panic => cases h; exact .inr ⟨(by intro v1 e; cases e), rfl⟩
        · rintro ⟨r, s1, ⟨n, h1⟩, ⟨v1, rfl, m, h2⟩ | ⟨h2, rfl⟩⟩
          · refine ⟨max n m, ?_⟩
            rw [invoke_mono t (Nat.le_max_left n m) h1]
            exact from_mono (Nat.le_max_right n m) h2
          · refine ⟨n, ?_⟩
            rw [h1]
            cases r with
            | ok v1 => exact absurd rfl (h2 v1)
            | err m => rfl
            | panic => rfl
    rw [List.cons_append, step, step]
    simp only [step]
    cases t.get? c.name.text with
    | none =>
      simp only
      constructor
      · rintro rfl; exact .inr ⟨rfl, by intro v1 e; cases e⟩
      · rintro (⟨v1, s1, e, _⟩ | ⟨h, _⟩)
        · cases e
        · exact h
    | some cmd =>
      simp only
      constructor
      · rintro ⟨r, s1, h1, ⟨v1, rfl, h2⟩ | ⟨h2, rfl⟩⟩
        · rcases ih.mp h2 with ⟨v2, s2, h3, h4⟩ | ⟨h3, h4⟩
          · exact .inl ⟨v2, s2, ⟨_, s1, h1, .inl ⟨v1, rfl, h3⟩⟩, h4⟩
          · exact .inr ⟨⟨_, s1, h1, .inl ⟨v1, rfl, h3⟩⟩, h4⟩
        · exact .inr ⟨⟨r, s1, h1, .inr ⟨h2, rfl⟩⟩, h2⟩
      · rintro (⟨v2, s2, ⟨r, s1, h1, ⟨v1, rfl, h2⟩ | ⟨h2, e⟩⟩, h4⟩ | ⟨⟨r, s1, h1, ⟨v1, rfl, h2⟩ | ⟨h2, rfl⟩⟩, h4⟩)
        · exact ⟨_, s1, h1, .inl ⟨v1, rfl, ih.mpr (.inl ⟨v2, s2, h2, h4⟩)⟩⟩
        · cases e; exact absurd rfl (h2 _)
        · exact ⟨_, s1, h1, .inl ⟨v1, rfl, ih.mpr (.inr ⟨h2, h4⟩)⟩⟩
        · exact ⟨r, s1, h1, .inr ⟨h2, rfl⟩⟩

theorem from_any {L : LigOps σ} {t : Table} {c : Call} {cs : List Call} {v v' : Value} {s : σ} {out : Res Value × σ} :
    EndsFrom L t (c :: cs) v s out ↔ EndsFrom L t (c :: cs) v' s out := Iff.rfl

theorem macro_step {L : LigOps σ} {t : Table} {m : Element} {doc : Str} {cs : List Call} (hm : t.get? m.text = some ⟨doc, .host (macro_ cs)⟩)
    (args : List Value) (v : Value) (s : σ) (n : Nat) :
    runCallsWith t (invoke L t (n + 1)) [⟨m, args⟩] v s = runCallsWith t (invoke L t n) cs Eval.emptyNet s := by
  simp only [runCallsWith, hm, invoke, macro_, hostRun]
  cases runCallsWith t (invoke L t n) cs Eval.emptyNet s with
  | none => rfl
  | some p => obtain ⟨r, s1⟩ := p; cases r <;> rfl

theorem macro_from {L : LigOps σ} {t : Table} {m : Element} {doc : Str} {cs : List Call} (hm : t.get? m.text = some ⟨doc, .host (macro_ cs)⟩)
    (args : List Value) (v : Value) (s : σ) (out : Res Value × σ) : EndsFrom L t [⟨m, args⟩] v s out ↔ EndsFrom L t cs Eval.emptyNet s out := by
  unfold EndsFrom
  have one := macro_step (L := L) hm args v s
  constructor
  · rintro ⟨n, h⟩
    cases n with
    | zero => simp only [runCallsWith, hm, invoke] at h; cases h
    | succ n => exact ⟨n, by rw [← one]; exact h⟩
  · rintro ⟨n, h⟩
    exact ⟨n + 1, by rw [one]; exact h⟩

/-- C74: a command that runs fixed calls is those calls: putting them in its place anywhere in a script makes no difference, whatever else is
in the table, and whether or not the script ends. -/
theorem C74_macro (L : LigOps σ) (t : Table) (m : Element) (doc : Str) (cs : List Call) (hm : t.get? m.text = some ⟨doc, .host (macro_ cs)⟩)
    (hcs : cs ≠ []) (pre post : List Call) (args : List Value) (s : σ) (out : Res Value × σ) :
    Ends L t (pre ++ ⟨m, args⟩ :: post) s out ↔ Ends L t (pre ++ cs ++ post) s out := by
  show EndsFrom L t _ Eval.emptyNet s out ↔ EndsFrom L t _ Eval.emptyNet s out
  obtain ⟨c, l, rfl⟩ : ∃ c l, cs = c :: l := by
    cases cs with
    | nil => exact absurd rfl hcs
    | cons c l => exact ⟨c, l, rfl⟩
  have mid : ∀ v s out, EndsFrom L t [⟨m, args⟩] v s out ↔ EndsFrom L t (c :: l) v s out := fun v s out => macro_from hm args v s out
  rw [show pre ++ ⟨m, args⟩ :: post = pre ++ ([⟨m, args⟩] ++ post) by rfl, List.append_assoc]
  rw [from_append (a := pre), from_append (a := pre)]
  have e : ∀ v s out, EndsFrom L t ([⟨m, args⟩] ++ post) v s out ↔ EndsFrom L t ((c :: l) ++ post) v s out := by
    intro v s out
    rw [from_append, from_append]
    simp only [mid]
  simp only [e]

/-- C74: if no host command in the table runs calls, every script ends, and with the outcome and store the evaluator of C13–C19 gives it. -/
theorem C74_conservative (L : LigOps σ) (t : Table) (ht : ∀ n cmd body, t.get? n = some cmd → cmd.fn = .host body → ∀ args, NoCallback (body args))
    (calls : List Call) (s : σ) : Ends L t calls s (Eval.runCalls L (asEval L t) calls s) := by
  have bound : ∃ n, ∀ c ∈ calls, depthList c.args + 1 ≤ n := by
    induction calls with
    | nil => exact ⟨0, by simp⟩
    | cons c cs ih =>
      obtain ⟨n, h⟩ := ih
      refine ⟨max n (depthList c.args + 1), ?_⟩
      intro d hd
      rcases List.mem_cons.mp hd with rfl | hd
      · omega
      · have := h d hd; omega
  obtain ⟨n, hn⟩ := bound
  refine ⟨n, ?_⟩
  rw [← C16_depth_bounded L (asEval L t) calls s n hn, runCalls, EvalRec.runCalls]
  exact runCallsWith_conv t L ht (invoke_conv t L ht n) calls _ s

theorem common_noCallback : ∀ n cmd body, EvalHost.common.get? n = some cmd → cmd.fn = .host body → ∀ args, NoCallback (body args) := by
  intro n cmd body hg hf
  have hm := Eval.mem_of_lookup hg
  exfalso
  revert hf
  have : ∀ p ∈ EvalHost.common, ∀ body, p.2.fn ≠ .host body := by
    intro p hp body
    simp only [EvalHost.common, Eval.common, List.map_cons, List.map_nil, List.mem_cons, List.not_mem_nil, or_false] at hp
    rcases hp with rfl | rfl | rfl | rfl | rfl | rfl | rfl | rfl | rfl <;> (intro e; cases e)
  exact this _ hm body

/-- C74: with the standard table the two evaluators agree, over every store. -/
theorem C74_standard (L : LigOps σ) (calls : List Call) (s : σ) : Ends L EvalHost.common calls s (Eval.runCalls L Eval.common calls s) :=
  C74_conservative L EvalHost.common common_noCallback calls s

/-- C74: a command that runs itself never returns: however deep the nesting allowed, it is exceeded (in Rust the stack overflows). -/
theorem C74_loops (L : LigOps σ) (t : Table) (m : Element) (doc : Str) (args' : List Value)
    (hm : t.get? m.text = some ⟨doc, .host (macro_ [⟨m, args'⟩])⟩) (args : List Value) (s : σ) : ¬ ∃ out, Ends L t [⟨m, args⟩] s out := by
  rintro ⟨out, n, h⟩
  suffices hs : ∀ n args v, runCallsWith t (invoke L t n) [⟨m, args⟩] v s = none by
    rw [runCalls, hs] at h; cases h
  intro n
  induction n with
  | zero => intro args v; simp only [runCallsWith, hm, invoke]
  | succ n ih =>
    intro args v
    rw [macro_step hm]
    exact ih args' Eval.emptyNet

/-- C74: when scripts end.  If calls can be weighed such that quotes in the arguments of a standard command weigh less than the call, and
whatever a host command runs, whatever it is answered, weighs less than the call it runs for, then every run ends, over every store, with
at most as many nested invocations as the heaviest call weighs. -/
theorem C74_ends (L : LigOps σ) (t : Table) (w : Call → Nat)
    (hq : ∀ c cmd b, t.get? c.name.text = some cmd → cmd.fn = .builtin b → ∀ e args, .quote (.element e :: args) ∈ c.args → w ⟨e, args⟩ < w c)
    (hh : ∀ c cmd body, t.get? c.name.text = some cmd → cmd.fn = .host body → OnlyRuns (fun d => w d < w c) (body c.args))
    (calls : List Call) (s : σ) : ∃ out, Ends L t calls s out := by
  have bound : ∃ n, ∀ c ∈ calls, w c < n := by
    induction calls with
    | nil => exact ⟨0, by simp⟩
    | cons c cs ih =>
      obtain ⟨n, h⟩ := ih
      refine ⟨max n (w c + 1), ?_⟩
      intro d hd
      rcases List.mem_cons.mp hd with rfl | hd
      · omega
      · have := h d hd; omega
  obtain ⟨n, hn⟩ := bound
  have h := runCallsWith_ends t (inv := invoke L t n) calls (fun c hc => invoke_ends t w hq hh n c (hn c hc)) Eval.emptyNet s
  obtain ⟨out, ho⟩ := Option.isSome_iff_exists.mp h
  exact ⟨out, n, ho⟩

/-! ## C75 -/

/-- C75: a script cannot tell two implementations of the store interface apart if their methods give the same answers, whatever host commands
are in the table. -/
theorem C75_same_answers (R : σ → τ → Prop) (L : LigOps σ) (L' : LigOps τ) (hL : SameMethods R L L') (t : Table) (calls : List Call) (s : σ) (u : τ)
    (h : R s u) (r : Res Value) (s' : σ) (he : Ends L t calls s (r, s')) : ∃ u', Ends L' t calls u (r, u') ∧ R s' u' := by
  obtain ⟨n, he⟩ := he
  obtain ⟨u', h1, h2⟩ := runCalls_sim t hL (Nat.le_refl n) calls s u h r s' he
  exact ⟨u', ⟨n, h1⟩, h2⟩

/-- C75: what no method of the store breaks, no script breaks, whatever host commands are in the table and whatever they run. -/
theorem C75_kept (L : LigOps σ) (P : σ → Prop) (hP : KeptByMethods L P) (t : Table) (calls : List Call) (s : σ) (h : P s) (out : Res Value × σ)
    (he : Ends L t calls s out) : P out.2 := by
  obtain ⟨r, s'⟩ := out
  obtain ⟨_, _, rfl, h2⟩ := C75_same_answers (fun s u => s = u ∧ P s) L L (by rintro q s _ ⟨rfl, h⟩; exact ⟨rfl, rfl, hP q s h⟩) t calls s s ⟨rfl, h⟩ r s' he
  exact h2

theorem kept_history (T : TripsOps σ) (s0 : σ) : KeptByMethods (Graph.ops T) fun s => ∃ l, s = (runOps T s0 l).2 := by
  have snoc : ∀ l op, (runOps T s0 (l ++ [op])).2 = (exec T (runOps T s0 l).2 op).2 := by
    intro l op; rw [runOps_append]; rfl
  rintro q s ⟨l, rfl⟩
  cases q with
  | collections => exact ⟨l, rfl⟩
  | entries c => exact ⟨l, rfl⟩
  | filter c p => exact ⟨l, rfl⟩
  | addCollection c => exact ⟨l ++ [.addCollection c.text], by rw [snoc]; rfl⟩
  | removeCollection c => exact ⟨l ++ [.removeCollection c.text], by rw [snoc]; rfl⟩
  | addEntries c es => exact ⟨l ++ [.addTriples c.text (es.map Graph.entryToTrip)], by rw [snoc]; rfl⟩
  | removeEntries c es => exact ⟨l ++ [.removeTriples c.text (es.map Graph.entryToTrip)], by rw [snoc]; rfl⟩

/-- C75: over `LigatureGraph` on any triple store, a script with any host commands leaves the store as some sequence of the store's own
operations would: what C27–C34, C56 and C57 say of every history holds after it. -/
theorem C75_history (T : TripsOps σ) (t : Table) (calls : List Call) (s : σ) (out : Res Value × σ) (he : Ends (Graph.ops T) t calls s out) :
    ∃ l, out.2 = (runOps T s l).2 :=
  C75_kept (Graph.ops T) _ (kept_history T s) t calls s ⟨[], rfl⟩ out he

theorem follows_graph {T : TripsOps τ} {R : Mem × Nat → τ → Prop} (h : LigSim R strictOps (Graph.ops T)) : FollowsMethods R guardedOps (Graph.ops T) := by
  intro q s u hr a ha
  cases q with
  | collections => cases ha
  | removeCollection c => cases ha
  | removeEntries c es => cases ha
  | filter c p => cases ha
  | entries c =>
    have h1 := h.entries s u c hr
    simp only [perform] at ha ⊢
    have hp : strictOps.entries s c ≠ .panic := by
      intro e; rw [show guardedOps.entries s c = _ from e] at ha; cases ha
    exact ⟨by rw [h1 hp]; exact ha, hr⟩
  | addCollection c =>
    have h1 := h.addCollection s u c hr
    simp only [perform] at ha ⊢
    have hp : (strictOps.addCollection s c).1 ≠ .panic := by
      intro e; rw [show (guardedOps.addCollection s c).1 = _ from e] at ha; cases ha
    exact ⟨by rw [(h1 hp).1]; exact ha, (h1 hp).2⟩
  | addEntries c es =>
    have h1 := h.addEntries s u c es hr
    simp only [perform] at ha ⊢
    have hp : (strictOps.addEntries s c es).1 ≠ .panic := by
      intro e; rw [show (guardedOps.addEntries s c es).1 = _ from e] at ha; cases ha
    have hes : (guardedOps.addEntries s c es).2.2 = es := by
      show (strictOps.addEntries s c es).2.2 = es
      simp only [strictOps]; split <;> rfl
    refine ⟨?_, (h1 hp).2⟩
    rw [(h1 hp).1, show ((Graph.ops T).addEntries u c es).2.2 = es from rfl, ← ha, hes]; rfl

theorem follow_ends {T : TripsOps τ} {R : Mem × Nat → τ → Prop} (h : LigSim R strictOps (Graph.ops T)) (t : Table) (calls : List Call) (s : Mem × Nat) (u : τ)
    (hr : R s u) (r : Res Value) (s' : Mem × Nat) (hp : r ≠ .panic) (he : Ends guardedOps t calls s (r, s')) :
    ∃ u', Ends (Graph.ops T) t calls u (r, u') ∧ R s' u' := by
  obtain ⟨n, he⟩ := he
  obtain ⟨u', h1, h2⟩ := runCalls_fol t (follows_graph h) (Nat.le_refl n) calls s u hr r s' he hp
  exact ⟨u', ⟨n, h1⟩, h2⟩

/-- C75: whatever host commands are in the table, a script that the guarded store (`Spec.guardedOps`, with 2^64 identifiers) runs to its end
without panic has the same result on `LigatureGraph` over each of the three stores, and leaves the same collections with the same triples. -/
theorem C75_same_on_all_stores (t : Table) (calls : List Call) (r : Res Value) (s' : Mem × Nat) (hp : r ≠ .panic)
    (he : Ends guardedOps t calls (Mem.new, 2 ^ 64) (r, s')) :
    ∃ m h d, Ends (Graph.ops Mem.ops) t calls Mem.new (r, m) ∧ Ends (Graph.ops Heed.ops) t calls Heed.new (r, h) ∧
      Ends (Graph.ops Duck.ops) t calls Duck.new (r, d) ∧ SameView Mem.ops m Heed.ops h ∧ SameView Mem.ops m Duck.ops d := by
  obtain ⟨m, e1, ⟨_, _, i1⟩, w1⟩ := follow_ends (follower_sim mem_follower (fun _ _ _ _ h => h)) t calls (Mem.new, 2 ^ 64) Mem.new
    ⟨⟨_, Nat.le_refl _, trivial⟩, rfl⟩ r s' hp he
  obtain ⟨h, e2, ⟨_, _, i2⟩, w2⟩ := follow_ends
    (follower_sim heed_follower (fun _ _ _ hk h => ⟨h.1, by have := h.2; unfold Heed.Room at *; omega⟩)) t calls (Mem.new, 2 ^ 64) Heed.new
    ⟨⟨2 ^ 64, Nat.le_refl _, Heed.good_new, by simp [Heed.Room, Heed.used, Heed.new]⟩, by rw [Heed.worldOf_new, Mem.world_new]⟩ r s' hp he
  obtain ⟨d, e3, ⟨_, _, i3⟩, w3⟩ := follow_ends (follower_sim duck_follower (fun _ _ _ _ h => h)) t calls (Mem.new, 2 ^ 64) Duck.new
    ⟨⟨0 + 2 ^ 64, by simp, Duck.inv_new⟩, by rw [Duck.world_new, Mem.world_new]⟩ r s' hp he
  refine ⟨m, h, d, e1, e2, e3, ?_, ?_⟩
  · have a1 := Mem.agrees m
    have a2 := heed_agrees (s := h) i2.1
    rw [w1] at a1; rw [w2] at a2
    exact a1.sameView a2
  · have a1 := Mem.agrees m
    have a2 := Duck.agrees (s := d) i3
    rw [w1] at a1; rw [w3] at a2
    exact a1.sameView a2

/-! ## A table with host commands, showing that the hypotheses above can be met -/

/-- Run the quote twice. -/
def exTwice : List Value → Host
  | [.quote (.element e :: args)] => .run [⟨e, args⟩, ⟨e, args⟩] fun r =>
    match r with
    | .ok v => .ret (.ok v)
    | .error m => .ret (.err m)
  | _ => .ret (.err (lit "twice takes a quote."))

/-- Copy one collection to another, using the store's methods. -/
def exCopy : List Value → Host
  | [.element a, .element b] => .store (.entries a) fun r =>
    match r with
    | .network (.ok n) => .store (.addCollection b) fun _ => .store (.addEntries b n) fun _ => .ret (.ok (.network n))
    | _ => .ret (.err (lit "cannot read."))
  | _ => .ret (.err (lit "copy takes two names."))

def exNet : Network := .ofList [.role (.of (lit "a")) (.of (lit "b")) (.of (lit "r"))]
def exSeed : List Call := [call "let" [.element (.of (lit "T")), .network exNet], call "read" [.element (.of (lit "T"))]]
def exHosts : Table := EvalHost.common ++ [(lit "seed", ⟨lit "Seed.", .host (macro_ exSeed)⟩), (lit "twice", ⟨lit "Twice.", .host exTwice⟩),
  (lit "copy", ⟨lit "Copy.", .host exCopy⟩)]
def exCalls : List Call := [call "seed" [], call "copy" [.element (.of (lit "T")), .element (.of (lit "S"))],
  call "twice" [.quote [.element (.of (lit "read")), .element (.of (lit "S"))]]]

theorem ends_of_first {L : LigOps σ} {t : Table} {n : Nat} {calls : List Call} {s : σ} {r : Res Value}
    (h : (EvalHost.runCalls L t n calls s).map Prod.fst = some r) : ∃ s', Ends L t calls s (r, s') := by
  obtain ⟨⟨r', s'⟩, h1, rfl⟩ := Option.map_eq_some_iff.mp h
  exact ⟨s', n, h1⟩

/-- The calls end, over the guarded store and so over all three (`C75_same_on_all_stores`), with the network read back. -/
example : ∃ s, Ends guardedOps exHosts exCalls (Mem.new, 2 ^ 64) (.ok (.network exNet), s) :=
  ends_of_first (n := 3) (by decide +kernel)

/-- Two nested invocations are needed. -/
example : EvalHost.runCalls guardedOps exHosts 1 exCalls (Mem.new, 2 ^ 64) = none := by decide +kernel

/-- `C74_macro` applies to `seed`. -/
example : exHosts.get? (lit "seed") = some ⟨lit "Seed.", .host (macro_ exSeed)⟩ ∧ exSeed ≠ [] := ⟨by rfl, by simp [exSeed]⟩

/-- `C74_loops` applies to a command that runs itself. -/
example : Table.get? [(lit "forever", ⟨[], .host (macro_ [⟨.of (lit "forever"), []⟩])⟩)] (Element.of (lit "forever")).text =
    some ⟨[], .host (macro_ [⟨.of (lit "forever"), []⟩])⟩ := rfl

/-- Twice the nesting of quotes, and one more for `seed`. -/
def exWeight (c : Call) : Nat := 2 * depthList c.args + if c.name.text = lit "seed" then 1 else 0

theorem depth_mem {v : Value} : ∀ {l : List Value}, v ∈ l → depth v ≤ depthList l
  | w :: l, h => by
    simp only [depthList]
    rcases List.mem_cons.mp h with rfl | h
    · omega
    · have := depth_mem h; omega

/-- `C74_ends` applies to the table. -/
example (calls : List Call) (s : σ) (L : LigOps σ) : ∃ out, Ends L exHosts calls s out := by
  have hw : ∀ c, exWeight c ≤ 2 * depthList c.args + 1 := by intro c; unfold exWeight; split <;> omega
  refine C74_ends L exHosts exWeight ?_ ?_ calls s
  · intro c cmd b _ _ e args hm
    have h1 := depth_mem hm
    have h2 := hw ⟨e, args⟩
    simp only [depth, depthList] at h1 h2
    unfold exWeight at *
    split <;> omega
  · intro c cmd body hg hf
    have hm := Eval.mem_of_lookup hg
    simp only [exHosts, EvalHost.common, Eval.common, List.map_cons, List.map_nil, List.cons_append, List.nil_append, List.mem_cons, List.not_mem_nil,
      or_false, Prod.mk.injEq] at hm
    rcases hm with ⟨_, rfl⟩ | ⟨_, rfl⟩ | ⟨_, rfl⟩ | ⟨_, rfl⟩ | ⟨_, rfl⟩ | ⟨_, rfl⟩ | ⟨_, rfl⟩ | ⟨_, rfl⟩ | ⟨_, rfl⟩ | ⟨hn, rfl⟩ | ⟨_, rfl⟩ | ⟨_, rfl⟩ <;> cases hf
    · refine ⟨?_, ?_⟩
      · intro d hd
        have : exWeight d = 0 := by
          simp only [exSeed, List.mem_cons, List.not_mem_nil, or_false] at hd
          rcases hd with rfl | rfl <;> decide +kernel
        rw [this, exWeight, if_pos hn]; omega
      · intro r; cases r <;> trivial
    · unfold exTwice
      split
      · rename_i e args h
        refine ⟨?_, ?_⟩
        · intro d hd
          have hd : d = ⟨e, args⟩ := by simpa using hd
          subst hd
          have h2 := hw ⟨e, args⟩
          have h3 : depthList c.args = depthList args + 1 := by rw [h]; simp [depthList, depth]
          unfold exWeight at *
          simp only at *
          omega
        · intro r; cases r <;> trivial
      · trivial
    · unfold exCopy
      split
      · intro a
        cases a with
        | network r => cases r <;> simp [OnlyRuns]
        | _ => trivial
      · trivial

/-- `C74_conservative` applies to a table with `copy`. -/
example : ∀ args, NoCallback (exCopy args) := by
  intro args
  unfold exCopy
  split
  · intro a
    cases a with
    | network r => cases r <;> simp [NoCallback]
    | _ => trivial
  · trivial

/-- `C75_same_answers` applies to two different implementations. -/
example : SameMethods (fun (s : Mem) (t : Mem × Mem) => t.1 = s) Graph.memOps doubled := by
  rintro q _ t rfl
  cases q <;> exact ⟨rfl, rfl⟩

end Props
end Verif

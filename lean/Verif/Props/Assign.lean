import Verif.Spec.Assign
import Verif.Props.Hidden
import Verif.Props.Messages
/-!
# C103: scripts as simultaneous assignments
-/
namespace Verif
namespace Props
open Spec Eval

namespace Assign

abbrev Path := List (Str × Origin) × Reply

/-- On every store what is done is one of the paths. -/
def Conducts (f : Mem → Res Value × Mem) (P : List Path) : Prop :=
  ∀ s, ∃ p ∈ P, Assigned s (f s).2 p.1 ∧ p.2.Is s (f s).1

/-- There is at most one path that does not fail. -/
def Single (P : List Path) : Prop := ∀ p ∈ P, ∀ q ∈ P, p.2 ≠ .fails → q.2 ≠ .fails → p = q

open Classical in
noncomputable def narrow (m : Network) (keep : Entry → Prop) : Network := BSet.ofList (m.toList.filter fun e => decide (keep e))

theorem mem_narrow {m : Network} {keep : Entry → Prop} {e : Entry} : e ∈ narrow m keep ↔ e ∈ m ∧ keep e := by
  rw [narrow, BSet.mem_ofList, List.mem_filter]
  simp [BSet.mem_def]

/-- A source in a store after an assignment, as a source in the store before. -/
noncomputable def afterS (A : List (Str × Origin)) : Origin → Origin
  | .said m => .said m
  | .part c keep =>
    match A.lookup c with
    | none => .part c keep
    | some (.said m) => .said (narrow m keep)
    | some (.part d k) => .part d fun e => k e ∧ keep e

theorem afterS_is {s s1 : Mem} {A : List (Str × Origin)} (h : Assigned s s1 A) {src : Origin} {n : Network} (hn : src.Is s1 n) : (afterS A src).Is s n := by
  cases src with
  | said m => exact hn
  | part c keep =>
    obtain ⟨m, h1, h2⟩ := hn
    have h := h c
    cases e : A.lookup c with
    | none =>
      rw [e] at h
      simp only [afterS, e]
      exact ⟨m, h ▸ h1, h2⟩
    | some src =>
      rw [e] at h
      obtain ⟨m', h3, h4⟩ := h
      rw [h1] at h3
      cases h3
      cases src with
      | said m' =>
        cases h4
        simp only [afterS, e]
        refine BSet.ext fun e => ?_
        rw [h2, mem_narrow]
      | part d k =>
        obtain ⟨m', h5, h6⟩ := h4
        simp only [afterS, e]
        refine ⟨m', h5, fun e => ?_⟩
        rw [h2, h6, and_assoc]

noncomputable def comp (A B : List (Str × Origin)) : List (Str × Origin) := B.map (fun p => (p.1, afterS A p.2)) ++ A

theorem lookup_comp (A B : List (Str × Origin)) (c : Str) :
    (comp A B).lookup c = match B.lookup c with | some src => some (afterS A src) | none => A.lookup c := by
  induction B with
  | nil => rfl
  | cons p B ih =>
    obtain ⟨x, src⟩ := p
    simp only [comp, List.map_cons, List.cons_append, List.lookup_cons] at ih ⊢
    cases c == x
    · exact ih
    · rfl

theorem comp_assigned {s s1 s2 : Mem} {A B : List (Str × Origin)} (h1 : Assigned s s1 A) (h2 : Assigned s1 s2 B) : Assigned s s2 (comp A B) := by
  intro c
  have a := h1 c
  have b := h2 c
  rw [lookup_comp]
  cases e : B.lookup c with
  | some src =>
    rw [e] at b
    obtain ⟨n, b1, b2⟩ := b
    exact ⟨n, b1, afterS_is h1 b2⟩
  | none =>
    rw [e] at b
    simp only at b ⊢
    rw [b]
    exact a

noncomputable def afterA (A : List (Str × Origin)) : Reply → Reply
  | .network src => .network (afterS A src)
  | a => a

theorem afterA_is {s s1 : Mem} {A : List (Str × Origin)} (h : Assigned s s1 A) {a : Reply} {r : Res Value} (hn : a.Is s1 r) : (afterA A a).Is s r := by
  cases a with
  | fails => exact hn
  | value v => exact hn
  | network src => obtain ⟨n, h1, h2⟩ := hn; exact ⟨n, h1, afterS_is h h2⟩

theorem afterA_fails {A : List (Str × Origin)} {a : Reply} : afterA A a = .fails ↔ a = .fails := by
  cases a <;> simp [afterA]

theorem not_fails {s : Mem} {a : Reply} {r : Res Value} (h : a.Is s r) (ha : a ≠ .fails) : ∃ v, r = .ok v := by
  cases a with
  | fails => exact absurd rfl ha
  | value v => exact ⟨v, h⟩
  | network src => obtain ⟨n, h, _⟩ := h; exact ⟨_, h⟩

theorem assigned_nil (s : Mem) : Assigned s s [] := fun _ => rfl

theorem conducts_flatMap {f h : Mem → Res Value × Mem} {P : List Path} (hf : Conducts f P) (φ : Path → List Path)
    (hφ : ∀ s p, Assigned s (f s).2 p.1 → p.2.Is s (f s).1 → ∃ q ∈ φ p, Assigned s (h s).2 q.1 ∧ q.2.Is s (h s).1) : Conducts h (P.flatMap φ) := by
  intro s
  obtain ⟨p, hp, h1, h2⟩ := hf s
  obtain ⟨q, hq, h3⟩ := hφ s p h1 h2
  exact ⟨q, List.mem_flatMap.mpr ⟨p, hp, hq⟩, h3⟩

theorem single_flatMap {P : List Path} (hP : Single P) (φ : Path → List Path) (h1 : ∀ p, p.2 = .fails → ∀ q ∈ φ p, q.2 = .fails)
    (h2 : ∀ p, Single (φ p)) : Single (P.flatMap φ) := by
  intro q hq q' hq' hf hf'
  obtain ⟨p, hp, hq⟩ := List.mem_flatMap.mp hq
  obtain ⟨p', hp', hq'⟩ := List.mem_flatMap.mp hq'
  have : p = p' := hP p hp p' hp' (fun e => hf (h1 p e q hq)) (fun e => hf' (h1 p' e q' hq'))
  subst this
  exact h2 p q hq q' hq' hf hf'

theorem single_one (p : Path) : Single [p] := by
  intro a ha b hb _ _
  rw [List.mem_singleton.mp ha, List.mem_singleton.mp hb]

theorem single_fail (p : Path) (A : List (Str × Origin)) : Single [p, (A, .fails)] := by
  intro a ha b hb h1 h2
  simp only [List.mem_cons, List.not_mem_nil, or_false] at ha hb
  rcases ha with rfl | rfl
  · rcases hb with rfl | rfl
    · rfl
    · exact absurd rfl h2
  · exact absurd rfl h1

/-- One thing and then, if it did not fail, another. -/
noncomputable def andThen (Q : List Path) (p : Path) : List Path :=
  match p.2 with
  | .fails => [p]
  | _ => Q.map fun q => (comp p.1 q.1, afterA p.1 q.2)

theorem andThen_fails {Q : List Path} {p : Path} (h : p.2 = .fails) : andThen Q p = [p] := by
  obtain ⟨A, a⟩ := p; cases h; rfl

theorem andThen_ok {Q : List Path} {p : Path} (h : p.2 ≠ .fails) : andThen Q p = Q.map fun q => (comp p.1 q.1, afterA p.1 q.2) := by
  obtain ⟨A, a⟩ := p
  cases a
  · exact absurd rfl h
  · rfl
  · rfl

theorem conducts_seq {f g h : Mem → Res Value × Mem} {P Q : List Path} (hP : Conducts f P) (hQ : Conducts g Q)
    (h1 : ∀ s v, (f s).1 = .ok v → h s = g (f s).2) (h2 : ∀ s, (∀ v, (f s).1 ≠ .ok v) → (h s).2 = (f s).2 ∧ ∀ v, (h s).1 ≠ .ok v) :
    Conducts h (P.flatMap (andThen Q)) := by
  refine conducts_flatMap hP _ fun s p a b => ?_
  by_cases e : p.2 = .fails
  · rw [andThen_fails e]
    have b' : ∀ v, (f s).1 ≠ .ok v := by rw [e] at b; exact b
    refine ⟨p, List.mem_singleton.mpr rfl, ?_, ?_⟩
    · rw [(h2 s b').1]; exact a
    · rw [e]; exact (h2 s b').2
  · rw [andThen_ok e]
    obtain ⟨v, hv⟩ := not_fails b e
    obtain ⟨q, hq, c, d⟩ := hQ (f s).2
    refine ⟨_, List.mem_map_of_mem hq, ?_, ?_⟩
    · rw [h1 s v hv]; exact comp_assigned a c
    · rw [h1 s v hv]; exact afterA_is a d

theorem single_seq {P Q : List Path} (hP : Single P) (hQ : Single Q) : Single (P.flatMap (andThen Q)) := by
  refine single_flatMap hP _ (fun p e q hq => ?_) fun p => ?_
  · rw [andThen_fails e] at hq
    rw [List.mem_singleton.mp hq]; exact e
  · by_cases e : p.2 = .fails
    · rw [andThen_fails e]; exact single_one p
    · rw [andThen_ok e]
      intro a ha b hb h1 h2
      obtain ⟨q, hq, rfl⟩ := List.mem_map.mp ha
      obtain ⟨q', hq', rfl⟩ := List.mem_map.mp hb
      rw [hQ q hq q' hq' (fun e => h1 (afterA_fails.mpr e)) (fun e => h2 (afterA_fails.mpr e))]

theorem conducts_fixed {f : Mem → Res Value × Mem} (a : Reply) (h : ∀ s, (f s).2 = s ∧ a.Is s (f s).1) : Conducts f [([], a)] := by
  intro s
  refine ⟨_, List.mem_singleton.mpr rfl, ?_, (h s).2⟩
  rw [(h s).1]
  exact assigned_nil s

theorem conducts_reads {f : Mem → Res Value × Mem} (a : Reply) (h : ∀ s, (f s).2 = s ∧ (a.Is s (f s).1 ∨ ∀ v, (f s).1 ≠ .ok v)) :
    Conducts f [([], a), ([], .fails)] := by
  intro s
  rcases (h s).2 with h2 | h2
  · refine ⟨_, List.mem_cons_self .., ?_, h2⟩
    rw [(h s).1]
    exact assigned_nil s
  · refine ⟨_, List.mem_cons_of_mem _ (List.mem_singleton.mpr rfl), ?_, h2⟩
    rw [(h s).1]
    exact assigned_nil s

/-! ### Filters -/

def Passes (q : Query) (t : Trip) : Prop :=
  Mem.slotStep q.fst t.fst = .go ∧ Mem.slotStep q.snd t.snd = .go ∧ Mem.slotStep q.thd t.thd = .go

theorem filterLoop_mem (q : Query) : ∀ (l : List Trip) (acc r : BSet Trip), Mem.filterLoop q l acc = .ok r →
    ∀ t, t ∈ r ↔ t ∈ acc ∨ (t ∈ l ∧ Passes q t)
  | [], acc, r, h, t => by
    cases h
    simp
  | x :: l, acc, r, h, t => by
    unfold Mem.filterLoop at h
    have skip : ∀ {r}, ¬ Passes q x → Mem.filterLoop q l acc = .ok r → (t ∈ r ↔ t ∈ acc ∨ (t ∈ x :: l ∧ Passes q t)) := by
      intro r hx h
      rw [filterLoop_mem q l acc r h]
      refine or_congr Iff.rfl (and_congr_left fun hp => ?_)
      rw [List.mem_cons]
      exact ⟨.inr, fun h => h.resolve_left fun e => hx (e ▸ hp)⟩
    split at h
    · cases h
    · rename_i e1
      exact skip (fun hp => by rw [hp.1] at e1; cases e1) h
    · rename_i e1
      split at h
      · cases h
      · rename_i e2
        exact skip (fun hp => by rw [hp.2.1] at e2; cases e2) h
      · rename_i e2
        split at h
        · cases h
        · rename_i e3
          exact skip (fun hp => by rw [hp.2.2] at e3; cases e3) h
        · rename_i e3
          rw [filterLoop_mem q l _ r h, BSet.mem_insert, List.mem_cons]
          constructor
          · rintro ((rfl | h) | ⟨h, hp⟩)
            · exact .inr ⟨.inl rfl, e1, e2, e3⟩
            · exact .inl h
            · exact .inr ⟨.inr h, hp⟩
          · rintro (h | ⟨rfl | h, hp⟩)
            · exact .inl (.inr h)
            · exact .inl (.inl rfl)
            · exact .inr ⟨h, hp⟩

theorem filter_origin {s : Mem} {c : Element} {p : Entry} {n : Network} (h : Graph.memOps.filter s c p = .ok n) :
    (Origin.part c.text fun e => ∃ t, e = Graph.tripToEntry t ∧ Passes (Graph.patternToQuery p) t).Is s n := by
  simp only [Graph.memOps, Graph.ops, Graph.filter, Mem.ops, Mem.filter] at h
  cases hc : s.colls.get? c.text with
  | none => rw [hc] at h; cases h
  | some S =>
    rw [hc] at h
    simp only at h
    cases hr : Mem.filterLoop (Graph.patternToQuery p) S.toList ∅ with
    | err m => rw [hr] at h; cases h
    | panic => rw [hr] at h; cases h
    | ok r =>
      rw [hr] at h
      simp only [Res.map, Res.errTodo] at h
      cases h
      refine ⟨S.map Graph.tripToEntry, ?_, fun e => ?_⟩
      · simp only [Graph.memOps, Graph.ops, Graph.entries, Mem.ops, Mem.triples, Element.of, hc, Res.map]
      · have := filterLoop_mem _ _ _ _ hr
        simp only [BSet.mem_map, this]
        constructor
        · rintro ⟨t, h, rfl⟩
          rcases h with h | ⟨h, hp⟩
          · simp at h
          · exact ⟨⟨t, h, rfl⟩, t, rfl, hp⟩
        · rintro ⟨⟨t, h, rfl⟩, t', e', hp⟩
          cases Graph.tripToEntry_inj e'
          exact ⟨t, .inr ⟨h, hp⟩, rfl⟩

/-! ### Letting -/

/-- A network as it comes back from a store. -/
def stored (n : Network) : Network := (n.map Graph.entryToTrip).map Graph.tripToEntry

theorem stored_part {s : Mem} {c : Str} {keep : Entry → Prop} {n : Network} (h : (Origin.part c keep).Is s n) : stored n = n := by
  obtain ⟨m, h1, h2⟩ := h
  simp only [Graph.memOps, Graph.ops, Graph.entries, Mem.ops, Mem.triples, Element.of] at h1
  cases hc : s.colls.get? c with
  | none => rw [hc] at h1; cases h1
  | some S =>
    rw [hc] at h1
    simp only [Res.map] at h1
    cases h1
    have key : ∀ e ∈ n, Graph.tripToEntry (Graph.entryToTrip e) = e := by
      intro e he
      obtain ⟨t, _, rfl⟩ := BSet.mem_map.mp ((h2 e).mp he).1
      rw [Graph.entryToTrip_tripToEntry]
    refine BSet.ext fun e => ?_
    simp only [stored, BSet.mem_map]
    constructor
    · rintro ⟨t, ⟨e', h, rfl⟩, rfl⟩
      rw [key e' h]; exact h
    · intro h
      exact ⟨_, ⟨e, h, rfl⟩, key e h⟩

def storedS : Origin → Origin
  | .said n => .said (stored n)
  | src => src

theorem storedS_is {s : Mem} {src : Origin} {n : Network} (h : src.Is s n) : (storedS src).Is s (stored n) := by
  cases src with
  | said m => cases h; rfl
  | part c keep => rw [stored_part h]; exact h

theorem let_entries (s : Mem) (name : Element) (n : Network) (c : Str) :
    Graph.memOps.entries (letStore Graph.memOps name n s).2 (.of c) = if c = name.text then .ok (stored n) else Graph.memOps.entries s (.of c) := by
  rw [memLet]
  simp only [Graph.memOps, Graph.ops, Graph.entries, Mem.ops, Mem.triples, Element.of]
  by_cases e : c = name.text
  · subst e
    simp only [BMap.get?_insert_self, if_pos, Res.map]
    congr 2
    exact BSet.ext fun e => by simp [BSet.mem_union]
  · simp only [BMap.get?_insert_ne _ _ e, e, if_false]

theorem let_assigned {s s1 : Mem} {A : List (Str × Origin)} {name : Element} {n : Network} {src : Origin} (h : Assigned s s1 A) (hn : src.Is s n) :
    Assigned s (letStore Graph.memOps name n s1).2 ((name.text, storedS src) :: A) := by
  intro c
  have h := h c
  rw [List.lookup_cons, let_entries]
  by_cases e : c = name.text
  · subst e
    simp only [beq_self_eq_true, if_pos]
    exact ⟨_, rfl, storedS_is hn⟩
  · have : (c == name.text) = false := by simpa using e
    simp only [this, e, if_false]
    exact h

theorem let_ok (s : Mem) (name : Element) (n : Network) : (letStore Graph.memOps name n s).1 = .ok (.network ∅) := by
  rw [memLet]

/-- `let` of what one thing answered. -/
def andLet (name : Element) (p : Path) : List Path :=
  match p.2 with
  | .value (.network n) => [((name.text, storedS (.said n)) :: p.1, .value (.network ∅))]
  | .network src => [((name.text, storedS src) :: p.1, .value (.network ∅))]
  | _ => [(p.1, .fails)]

/-- `assert-fail` of what one thing answered. -/
def andFail (p : Path) : List Path := [(p.1, .value (.network ∅)), (p.1, .fails)]

/-- The second thing answered, too. -/
noncomputable def equalStep (A : List (Str × Origin)) (q : Path) : List Path :=
  match q.2 with
  | .fails => [(comp A q.1, .fails)]
  | _ => [(comp A q.1, .value (.network ∅)), (comp A q.1, .fails)]

/-- `assert-equal` of what two things answered. -/
noncomputable def andEqual (Q : List Path) (p : Path) : List Path :=
  match p.2 with
  | .fails => [p]
  | _ => Q.flatMap (equalStep p.1)

theorem single_let {P : List Path} (hP : Single P) (name : Element) : Single (P.flatMap (andLet name)) := by
  refine single_flatMap hP _ (fun p e q hq => ?_) fun p => ?_
  · obtain ⟨A, a⟩ := p
    cases e
    simp only [andLet, List.mem_singleton] at hq
    rw [hq]
  · obtain ⟨A, a⟩ := p
    unfold andLet
    split <;> exact single_one _

theorem single_equal {P Q : List Path} (hP : Single P) (hQ : Single Q) : Single (P.flatMap (andEqual Q)) := by
  refine single_flatMap hP _ (fun p e q hq => ?_) fun p => ?_
  · obtain ⟨A, a⟩ := p
    cases e
    simp only [andEqual, List.mem_singleton] at hq
    rw [hq]
  · obtain ⟨A, a⟩ := p
    unfold andEqual
    split
    · exact single_one _
    · refine single_flatMap hQ _ (fun q e r hr => ?_) fun q => ?_
      · obtain ⟨B, b⟩ := q
        cases e
        simp only [equalStep, List.mem_singleton] at hr
        rw [hr]
      · unfold equalStep
        split
        · exact single_one _
        · exact single_fail _ _

theorem read_origin {s : Mem} {c : Element} {n : Network} (h : Graph.memOps.entries s c = .ok n) : (Origin.part c.text fun _ => True).Is s n :=
  ⟨n, h, fun _ => (and_iff_left trivial).symm⟩

theorem single_reads (a : Reply) : Single [([], a), ([], .fails)] := single_fail ([], a) []

theorem conducts_let {f h : Mem → Res Value × Mem} {P : List Path} (hf : Conducts f P) (name : Element)
    (h1 : ∀ s n, (f s).1 = .ok (.network n) → h s = letStore Graph.memOps name n (f s).2)
    (h2 : ∀ s, (∀ n, (f s).1 ≠ .ok (.network n)) → h s = (.panic, (f s).2)) : Conducts h (P.flatMap (andLet name)) := by
  refine conducts_flatMap hf _ fun s p a b => ?_
  obtain ⟨A, x⟩ := p
  have no : (∀ n, (f s).1 ≠ .ok (.network n)) → ∃ q ∈ [((A, .fails) : Path)], Assigned s (h s).2 q.1 ∧ q.2.Is s (h s).1 := by
    intro hn
    rw [h2 s hn]
    exact ⟨_, List.mem_singleton.mpr rfl, a, fun v e => by cases e⟩
  have yes : ∀ src n, src.Is s n → (f s).1 = .ok (.network n) →
      ∃ q ∈ [(((name.text, storedS src) :: A, .value (.network ∅)) : Path)], Assigned s (h s).2 q.1 ∧ q.2.Is s (h s).1 := by
    intro src n hs hn
    rw [h1 s n hn]
    exact ⟨_, List.mem_singleton.mpr rfl, let_assigned a hs, let_ok _ _ _⟩
  cases x with
  | fails => exact no fun n => b _
  | value v =>
    have b : (f s).1 = .ok v := b
    cases v with
    | network n => exact yes (.said n) n rfl b
    | element e => exact no fun n h => by rw [b] at h; cases h
    | quote q => exact no fun n h => by rw [b] at h; cases h
  | network src =>
    obtain ⟨n, b1, b2⟩ := b
    exact yes src n b2 b1

theorem conducts_failed {f h : Mem → Res Value × Mem} {P : List Path} (hf : Conducts f P)
    (h1 : ∀ s, (h s).2 = (f s).2 ∧ ((h s).1 = .ok (.network ∅) ∨ ∀ v, (h s).1 ≠ .ok v)) : Conducts h (P.flatMap andFail) := by
  refine conducts_flatMap hf _ fun s p a b => ?_
  rcases (h1 s).2 with h | h
  · exact ⟨(p.1, .value (.network ∅)), List.mem_cons_self .., by rw [(h1 s).1]; exact a, h⟩
  · exact ⟨(p.1, .fails), List.mem_cons_of_mem _ (List.mem_singleton.mpr rfl), by rw [(h1 s).1]; exact a, h⟩

theorem conducts_equal {f g h : Mem → Res Value × Mem} {P Q : List Path} (hP : Conducts f P) (hQ : Conducts g Q)
    (h1 : ∀ s v, (f s).1 = .ok v → (h s).2 = (g (f s).2).2 ∧
      ((∀ w, (g (f s).2).1 ≠ .ok w) → ∀ w, (h s).1 ≠ .ok w) ∧ ((h s).1 = .ok (.network ∅) ∨ ∀ w, (h s).1 ≠ .ok w))
    (h2 : ∀ s, (∀ v, (f s).1 ≠ .ok v) → (h s).2 = (f s).2 ∧ ∀ v, (h s).1 ≠ .ok v) : Conducts h (P.flatMap (andEqual Q)) := by
  refine conducts_flatMap hP _ fun s p a b => ?_
  obtain ⟨A, x⟩ := p
  by_cases e : x = .fails
  · subst e
    have h2 := h2 s b
    exact ⟨_, List.mem_singleton.mpr rfl, by rw [h2.1]; exact a, h2.2⟩
  · obtain ⟨v, hv⟩ := not_fails b e
    obtain ⟨k1, k2, k3⟩ := h1 s v hv
    obtain ⟨⟨B, y⟩, hq, c, d⟩ := hQ (f s).2
    have ha : Assigned s (h s).2 (comp A B) := by rw [k1]; exact comp_assigned a c
    have two : ∃ q ∈ [((comp A B, .value (.network ∅)) : Path), (comp A B, .fails)], Assigned s (h s).2 q.1 ∧ q.2.Is s (h s).1 := by
      rcases k3 with k3 | k3
      · exact ⟨_, List.mem_cons_self .., ha, k3⟩
      · exact ⟨_, List.mem_cons_of_mem _ (List.mem_singleton.mpr rfl), ha, k3⟩
    obtain ⟨q, hq', hr⟩ : ∃ q ∈ equalStep A (B, y), Assigned s (h s).2 q.1 ∧ q.2.Is s (h s).1 := by
      cases y with
      | fails => exact ⟨_, List.mem_singleton.mpr rfl, ha, k2 d⟩
      | value _ => exact two
      | network _ => exact two
    refine ⟨q, ?_, hr⟩
    cases x with
    | fails => exact absurd rfl e
    | value _ => exact List.mem_flatMap.mpr ⟨_, hq, hq'⟩
    | network _ => exact List.mem_flatMap.mpr ⟨_, hq, hq'⟩

/-- The paths of something that runs; one at most, if it does not try failing calls. -/
def Paths (free : Prop) (f : Mem → Res Value × Mem) : Prop := ∃ P, Conducts f P ∧ (free → Single P)

theorem paths_fixed (a : Reply) {f : Mem → Res Value × Mem} {free : Prop} (h : ∀ s, (f s).2 = s ∧ a.Is s (f s).1) : Paths free f :=
  ⟨_, conducts_fixed a h, fun _ => single_one _⟩

theorem paths_reads (a : Reply) {f : Mem → Res Value × Mem} {free : Prop} (h : ∀ s, (f s).2 = s ∧ (a.Is s (f s).1 ∨ ∀ v, (f s).1 ≠ .ok v)) : Paths free f :=
  ⟨_, conducts_reads a h, fun _ => single_reads _⟩

theorem paths_const (r : Res Value) {f : Mem → Res Value × Mem} {free : Prop} (h : ∀ s, f s = (r, s)) : Paths free f := by
  cases r with
  | ok v => exact paths_fixed (.value v) fun s => by rw [h s]; exact ⟨rfl, rfl⟩
  | err m => exact paths_fixed .fails fun s => by rw [h s]; exact ⟨rfl, fun v e => by cases e⟩
  | panic => exact paths_fixed .fails fun s => by rw [h s]; exact ⟨rfl, fun v e => by cases e⟩

abbrev AF : Str := lit "assert-fail"

/-- There are no quotes among the values. -/
def Flat (vs : List Value) : Prop := ∀ v ∈ vs, ∀ q, v ≠ .quote q

/-- If the value is a quote, there are no quotes in it, or `assert-fail` is not mentioned. -/
def Free (v : Value) : Prop := ∀ vs, v = .quote vs → Flat vs ∨ WithoutAll AF vs

theorem flat_free {vs : List Value} (h : Flat vs) : ∀ v ∈ vs, Free v := fun v hv q e => absurd e (h v hv q)

theorem without_free : ∀ {vs : List Value}, WithoutAll AF vs → ∀ v ∈ vs, Free v
  | v :: vs, h, x, hx, q, e => by
    rcases List.mem_cons.mp hx with rfl | hx
    · subst e
      exact .inr h.1
    · exact without_free h.2 x hx q e

/-- A failing call with no quotes in it does nothing. -/
theorem flat_fails {args : List Value} (h : Flat args) (b : Builtin) (s : Mem) (hf : ∀ v, (runFun Graph.memOps common (.builtin b) args s).1 ≠ .ok v) :
    (runFun Graph.memOps common (.builtin b) args s).2 = s := by
  have arg : ∀ v ∈ args, ∀ s : Mem, evalArg Graph.memOps common v s = (.ok v, s) := by
    intro v hv s
    cases v with
    | element e => rw [evalArg]
    | network n => rw [evalArg]
    | quote q => exact absurd rfl (h _ hv q)
  match b with
  | .docs | .union | .id | .ignore | .read | .filter => simp only [runFun]
  | .assertEqual =>
    match args with
    | [left, right] => simp only [runFun, arg left (List.mem_cons_self ..), arg right (List.mem_cons_of_mem _ (List.mem_singleton.mpr rfl))]
    | [] => simp only [runFun]
    | [_] => simp only [runFun]
    | _ :: _ :: _ :: _ => simp only [runFun]
  | .assertFail =>
    match args with
    | [.quote q] => exact absurd rfl (h _ (List.mem_singleton.mpr rfl) q)
    | [.element _] => simp only [runFun]
    | [.network _] => simp only [runFun]
    | [] => simp only [runFun]
    | _ :: _ :: _ => simp only [runFun]
  | .let_ =>
    match args with
    | [.element name, .network n] =>
      simp only [runFun] at hf
      exact absurd (let_ok s name n) (hf _)
    | [.element _, .quote q] => exact absurd rfl (h _ (List.mem_cons_of_mem _ (List.mem_singleton.mpr rfl)) q)
    | [.element _, .element _] => simp only [runFun]
    | [.quote _, _] => simp only [runFun]
    | [.network _, _] => simp only [runFun]
    | [] => simp only [runFun]
    | [_] => simp only [runFun]
    | _ :: _ :: _ :: _ => simp only [runFun]

theorem flatQuote_fails {q : List Value} (h : Flat q) (s : Mem) (hf : ∀ v, (runQuote Graph.memOps common q s).1 ≠ .ok v) :
    (runQuote Graph.memOps common q s).2 = s := by
  match q with
  | [] => simp only [runQuote]
  | .element name :: args =>
    cases e : (common : Commands Mem).get? name.text with
    | none => simp only [runQuote, e]
    | some c =>
      obtain ⟨⟨b, hb⟩, _⟩ := common_builtin e
      simp only [runQuote, e, hb] at hf ⊢
      exact flat_fails (fun v hv => h v (List.mem_cons_of_mem _ hv)) b s hf
  | .quote _ :: _ => simp only [runQuote]
  | .network _ :: _ => simp only [runQuote]

/-- `assert-fail` of something that does nothing when it fails. -/
theorem conducts_failedFlat {f h : Mem → Res Value × Mem} {P : List Path} (hf : Conducts f P)
    (h1 : ∀ s, (∀ v, (f s).1 ≠ .ok v) → (f s).2 = s)
    (h2 : ∀ s, (h s).2 = (f s).2 ∧ (((h s).1 = .ok (.network ∅) ∧ ∀ v, (f s).1 ≠ .ok v) ∨ ∀ v, (h s).1 ≠ .ok v)) :
    Conducts h (([], .value (.network ∅)) :: P.map fun p => (p.1, .fails)) := by
  intro s
  obtain ⟨k1, k2 | k2⟩ := h2 s
  · refine ⟨_, List.mem_cons_self .., ?_, k2.1⟩
    rw [k1, h1 s k2.2]
    exact assigned_nil s
  · obtain ⟨p, hp, a, _⟩ := hf s
    exact ⟨_, List.mem_cons_of_mem _ (List.mem_map_of_mem hp), by rw [k1]; exact a, k2⟩

theorem single_failedFlat (P : List Path) : Single (([], .value (.network ∅)) :: P.map fun p => (p.1, .fails)) := by
  intro a ha b hb h1 h2
  rcases List.mem_cons.mp ha with rfl | ha
  · rcases List.mem_cons.mp hb with rfl | hb
    · rfl
    · obtain ⟨p, _, rfl⟩ := List.mem_map.mp hb
      exact absurd rfl h2
  · obtain ⟨p, _, rfl⟩ := List.mem_map.mp ha
    exact absurd rfl h1

theorem common_assertFail {n : Str} {c : Command Mem} (h : (common : Commands Mem).get? n = some c) (hf : c.fn = .builtin .assertFail) : n = AF := by
  have hm : (n, c) ∈ (common : Commands Mem) := mem_of_lookup h
  simp only [common, List.mem_cons, Prod.mk.injEq, List.not_mem_nil, or_false] at hm
  rcases hm with ⟨_, rfl⟩ | ⟨hn, rfl⟩ | ⟨_, rfl⟩ | ⟨_, rfl⟩ | ⟨_, rfl⟩ | ⟨_, rfl⟩ | ⟨_, rfl⟩ | ⟨_, rfl⟩ | ⟨_, rfl⟩ <;>
    first | exact hn | (simp at hf)

mutual
theorem arg_paths (v : Value) : Paths (Free v) (evalArg Graph.memOps common v) := by
  match v with
  | .quote q =>
    have h : evalArg Graph.memOps common (.quote q) = runQuote Graph.memOps common q := funext fun s => by rw [evalArg]
    rw [h]
    obtain ⟨P, h1, h2⟩ := quote_paths q
    exact ⟨P, h1, fun hf => h2 (hf q rfl)⟩
  | .element e => exact paths_const (.ok (.element e)) fun s => by rw [evalArg]
  | .network n => exact paths_const (.ok (.network n)) fun s => by rw [evalArg]

theorem quote_paths (q : List Value) : Paths (Flat q ∨ WithoutAll AF q) (runQuote Graph.memOps common q) := by
  match q with
  | [] => exact paths_const (.ok emptyNet) fun s => by rw [runQuote]
  | .element name :: args =>
    cases h : (common : Commands Mem).get? name.text with
    | none => exact paths_const (.err (notFound name)) fun s => by simp only [runQuote, h]
    | some c =>
      have e : runQuote Graph.memOps common (.element name :: args) = runFun Graph.memOps common c.fn args := funext fun s => by simp only [runQuote, h]
      obtain ⟨⟨b, hb⟩, _⟩ := common_builtin h
      rw [e, hb]
      obtain ⟨P, h1, h2⟩ := fun_paths args b
      refine ⟨P, h1, fun hf => ?_⟩
      rcases hf with hf | hf
      · have hf : Flat args := fun v hv => hf v (List.mem_cons_of_mem _ hv)
        refine h2 (fun _ q e => ?_) (flat_free hf)
        subst e
        exact absurd rfl (hf _ (List.mem_singleton.mpr rfl) q)
      · refine h2 (fun e => ?_) (without_free hf.2)
        subst e
        exact absurd (common_assertFail h hb) hf.1
  | .quote _ :: _ => exact paths_const .panic fun s => by simp only [runQuote]
  | .network _ :: _ => exact paths_const .panic fun s => by simp only [runQuote]

theorem fun_paths (args : List Value) : ∀ b, ∃ P, Conducts (runFun Graph.memOps common (.builtin b) args) P ∧ ((b = .assertFail → ∀ q, args = [.quote q] → Flat q) → (∀ v ∈ args, Free v) → Single P) := by
  intro b
  have lift : Paths True (runFun Graph.memOps common (.builtin b) args) →
      ∃ P, Conducts (runFun Graph.memOps common (.builtin b) args) P ∧ ((b = .assertFail → ∀ q, args = [.quote q] → Flat q) → (∀ v ∈ args, Free v) → Single P) :=
    fun ⟨P, h1, h2⟩ => ⟨P, h1, fun _ _ => h2 trivial⟩
  match b with
  | .docs => exact lift (paths_const (docs (common : Commands Mem) args) fun s => by simp only [runFun])
  | .union => exact lift (paths_const (Eval.union args) fun s => by simp only [runFun])
  | .id => exact lift (paths_const (idCmd args) fun s => by simp only [runFun])
  | .ignore => exact lift (paths_const (.ok emptyNet) fun s => by simp only [runFun])
  | .read =>
    refine lift ?_
    by_cases h : ∃ c, args = [.element c]
    · obtain ⟨c, rfl⟩ := h
      refine paths_reads (.network (.part c.text fun _ => True)) fun s => ?_
      simp only [runFun, Eval.read]
      refine ⟨trivial, ?_⟩
      cases e : Graph.memOps.entries s c with
      | ok n => exact .inl ⟨n, rfl, read_origin e⟩
      | err m => exact .inr fun v h => by cases h
      | panic => exact .inr fun v h => by cases h
    · refine paths_const .panic fun s => ?_
      simp only [runFun, Eval.read]
      split
      · exact absurd ⟨_, rfl⟩ h
      · rfl
  | .filter =>
    refine lift ?_
    by_cases h : ∃ c a r b, args = [.element c, .element a, .element r, .element b]
    · obtain ⟨c, a, r, b, rfl⟩ := h
      refine paths_reads (.network (.part c.text fun e => ∃ t, e = Graph.tripToEntry t ∧ Passes (Graph.patternToQuery (.role a b r)) t)) fun s => ?_
      simp only [runFun, filterCmd]
      refine ⟨trivial, ?_⟩
      cases e : Graph.memOps.filter s c (.role a b r) with
      | ok n => exact .inl ⟨n, rfl, filter_origin e⟩
      | err m => exact .inr fun v h => by cases h
      | panic => exact .inr fun v h => by cases h
    · refine paths_const .panic fun s => ?_
      simp only [runFun, filterCmd]
      split
      · exact absurd ⟨_, _, _, _, rfl⟩ h
      · rfl
  | .assertEqual =>
    match args with
    | [left, right] =>
      obtain ⟨P, hP, sP⟩ := arg_paths left
      obtain ⟨Q, hQ, sQ⟩ := arg_paths right
      refine ⟨_, conducts_equal hP hQ (fun s v h => ?_) (fun s h => ?_), fun _ hf => single_equal (sP (hf _ (List.mem_cons_self ..))) (sQ (hf _ (List.mem_cons_of_mem _ (List.mem_singleton.mpr rfl))))⟩
      · simp only [runFun]
        rcases e1 : evalArg Graph.memOps common left s with ⟨a, s1⟩
        rw [e1] at h
        cases h
        rcases e2 : evalArg Graph.memOps common right s1 with ⟨b, s2⟩
        simp only [e2]
        cases b with
        | ok r =>
          refine ⟨rfl, fun h => absurd rfl (h r), ?_⟩
          simp only [assertEqualResult]
          split
          · exact .inl rfl
          · exact .inr fun w h => by cases h
        | err m => exact ⟨rfl, fun _ w => nofun, .inr fun w => nofun⟩
        | panic => exact ⟨rfl, fun _ w => nofun, .inr fun w => nofun⟩
      · simp only [runFun]
        rcases e1 : evalArg Graph.memOps common left s with ⟨a, s1⟩
        rw [e1] at h
        cases a with
        | ok r => exact absurd rfl (h r)
        | err m => exact ⟨rfl, fun w h => by cases h⟩
        | panic => exact ⟨rfl, fun w h => by cases h⟩
    | [] => exact lift (paths_const _ fun s => by simp only [runFun]; rfl)
    | [_] => exact lift (paths_const _ fun s => by simp only [runFun]; rfl)
    | _ :: _ :: _ :: _ => exact lift (paths_const _ fun s => by simp only [runFun]; rfl)
  | .assertFail =>
    match args with
    | [.quote q] =>
      obtain ⟨P, hP, _⟩ := arg_paths (.quote q)
      by_cases hq : Flat q
      · refine ⟨_, conducts_failedFlat hP (fun s h => ?_) fun s => ?_, fun _ _ => single_failedFlat P⟩
        · have e : evalArg Graph.memOps common (.quote q) s = runQuote Graph.memOps common q s := by rw [evalArg]
          rw [e] at h ⊢
          exact flatQuote_fails hq s h
        · simp only [runFun]
          rcases e1 : evalArg Graph.memOps common (.quote q) s with ⟨a, s1⟩
          cases a with
          | ok v => exact ⟨rfl, .inr fun w h => by cases h⟩
          | err m => exact ⟨rfl, .inl ⟨rfl, fun v h => by cases h⟩⟩
          | panic => exact ⟨rfl, .inr fun w h => by cases h⟩
      · refine ⟨_, conducts_failed hP fun s => ?_, fun h => absurd (h rfl q rfl) hq⟩
        simp only [runFun]
        rcases e1 : evalArg Graph.memOps common (.quote q) s with ⟨a, s1⟩
        cases a with
        | ok v => exact ⟨rfl, .inr fun w h => by cases h⟩
        | err m => exact ⟨rfl, .inl rfl⟩
        | panic => exact ⟨rfl, .inr fun w h => by cases h⟩
    | [.element _] => exact lift (paths_const _ fun s => by simp only [runFun]; rfl)
    | [.network _] => exact lift (paths_const _ fun s => by simp only [runFun]; rfl)
    | [] => exact lift (paths_const _ fun s => by simp only [runFun]; rfl)
    | _ :: _ :: _ => exact lift (paths_const _ fun s => by simp only [runFun]; rfl)
  | .let_ =>
    match args with
    | [.element name, .network n] =>
      refine ⟨_, conducts_let (conducts_fixed (f := fun s => (.ok (.network n), s)) (.value (.network n)) fun s => ⟨rfl, rfl⟩) name (fun s m h => ?_)
        (fun s h => absurd rfl (h n)), fun _ _ => single_let (single_one _) name⟩
      cases h
      simp only [runFun]
    | [.element name, .quote q] =>
      obtain ⟨P, hP, sP⟩ := arg_paths (.quote q)
      refine ⟨_, conducts_let hP name (fun s n h => ?_) (fun s h => ?_), fun _ hf => single_let (sP (hf _ (List.mem_cons_of_mem _ (List.mem_singleton.mpr rfl)))) name⟩
      · simp only [runFun]
        rcases e1 : evalArg Graph.memOps common (.quote q) s with ⟨a, s1⟩
        rw [e1] at h
        cases h
        rfl
      · simp only [runFun]
    | [.element _, .element _] => exact lift (paths_const _ fun s => by simp only [runFun]; rfl)
    | [.quote _, _] => exact lift (paths_const _ fun s => by simp only [runFun]; rfl)
    | [.network _, _] => exact lift (paths_const _ fun s => by simp only [runFun]; rfl)
    | [] => exact lift (paths_const _ fun s => by simp only [runFun]; rfl)
    | [_] => exact lift (paths_const _ fun s => by simp only [runFun]; rfl)
    | _ :: _ :: _ :: _ => exact lift (paths_const _ fun s => by simp only [runFun]; rfl)
end

/-- Quotes do not nest in the call, or `assert-fail` is not mentioned. -/
def CallFree (c : Call) : Prop :=
  (∀ q, Value.quote q ∈ c.args → Flat q) ∨ (c.name.text ≠ AF ∧ WithoutAll AF c.args)

theorem call_paths (c : Call) : Paths (CallFree c) (runCall Graph.memOps common c) := by
  cases h : (common : Commands Mem).get? c.name.text with
  | none => exact paths_const (.err (notFound c.name)) fun s => by simp only [runCall, h]
  | some cmd =>
    have e : runCall Graph.memOps common c = runFun Graph.memOps common cmd.fn c.args := funext fun s => by simp only [runCall, h]
    obtain ⟨⟨b, hb⟩, _⟩ := common_builtin h
    rw [e, hb]
    obtain ⟨P, h1, h2⟩ := fun_paths c.args b
    refine ⟨P, h1, fun hf => ?_⟩
    rcases hf with hf | hf
    · refine h2 (fun _ q e => hf q (by rw [e]; exact List.mem_singleton.mpr rfl)) fun v hv q e => .inl (hf q (e ▸ hv))
    · refine h2 (fun e => ?_) (without_free hf.2)
      subst e
      exact absurd (common_assertFail h hb) hf.1

theorem loop_paths : ∀ (calls : List Call) (v : Value), Paths (∀ c ∈ calls, CallFree c) (runCallsLoop Graph.memOps common calls v)
  | [], v => paths_const (.ok v) fun s => rfl
  | [c], v => by
    obtain ⟨P, h1, h2⟩ := call_paths c
    have e : runCallsLoop Graph.memOps common [c] v = runCall Graph.memOps common c := funext fun s => by
      simp only [runCallsLoop]
      rcases runCall Graph.memOps common c s with ⟨a, s1⟩
      cases a <;> rfl
    rw [e]
    exact ⟨P, h1, fun h => h2 (h c (List.mem_singleton.mpr rfl))⟩
  | c :: c' :: cs, v => by
    obtain ⟨P, h1, h2⟩ := call_paths c
    obtain ⟨Q, k1, k2⟩ := loop_paths (c' :: cs) emptyNet
    refine ⟨_, conducts_seq h1 k1 (fun s w h => ?_) (fun s h => ?_), fun h => single_seq (h2 (h c (List.mem_cons_self ..)))
      (k2 fun d hd => h d (List.mem_cons_of_mem _ hd))⟩
    · rw [runCallsLoop]
      rcases e1 : runCall Graph.memOps common c s with ⟨a, s1⟩
      rw [e1] at h
      cases h
      exact congrFun (congrArg _ rfl) _
    · rw [runCallsLoop]
      rcases e1 : runCall Graph.memOps common c s with ⟨a, s1⟩
      rw [e1] at h
      cases a with
      | ok r => exact absurd rfl (h r)
      | err m => exact ⟨rfl, fun w h => by cases h⟩
      | panic => exact ⟨rfl, fun w h => by cases h⟩

theorem paths_single {P : List Path} {f : Mem → Res Value × Mem} (h1 : Conducts f P) (h2 : Single P) :
    ∃ (A : List (Str × Origin)) (reply : Reply), ∀ (s : Mem) (v : Value), (f s).1 = .ok v → Assigned s (f s).2 A ∧ reply.Is s (.ok v) := by
  by_cases hp : ∃ p ∈ P, p.2 ≠ .fails
  · obtain ⟨p, hp, hf⟩ := hp
    refine ⟨p.1, p.2, fun s v hv => ?_⟩
    obtain ⟨q, hq, a, b⟩ := h1 s
    have hq' : q.2 ≠ .fails := fun e => by rw [e] at b; exact b v hv
    cases h2 p hp q hq hf hq'
    exact ⟨a, hv ▸ b⟩
  · refine ⟨[], .fails, fun s v hv => ?_⟩
    obtain ⟨q, hq, _, b⟩ := h1 s
    have : q.2 = .fails := Classical.byContradiction fun e => hp ⟨q, hq, e⟩
    rw [this] at b
    exact absurd hv (b v)

end Assign
open Assign

/-- C103: a script that succeeds on the in-memory store has done a simultaneous assignment that is the same for all stores on which it succeeds: every collection it
assigns gets a network that is spelled out, or a part of what some collection held at the start, the others keep what they hold, and the answer is one of the two, too. -/
theorem C103_script (script : Str) : ∃ (A : List (Str × Origin)) (reply : Reply), ∀ (s : Mem) (v : Value),
    (run Graph.memOps common script s).1 = .ok v → Assigned s (run Graph.memOps common script s).2 A ∧ reply.Is s (.ok v) := by
  by_cases hm : ∃ calls, Means script calls
  · obtain ⟨calls, hm⟩ := hm
    have hs := (C92_scripts calls).mp ⟨script, hm⟩
    obtain ⟨P, h1, h2⟩ := loop_paths calls emptyNet
    have e : run Graph.memOps common script = runCallsLoop Graph.memOps common calls emptyNet := funext fun s => run_means _ _ hm s
    rw [e]
    refine paths_single h1 (h2 fun c hc => .inl fun q hq v hv w e => ?_)
    have := (hs c hc).2 _ hq v hv
    subst e
    exact this
  · obtain ⟨P, h1, h2⟩ := paths_const (f := run Graph.memOps common script) (free := True) (run Graph.memOps common script Mem.new).1 fun s =>
      Prod.ext (run_no_calls_same _ hm s Mem.new) (run_no_calls _ hm s).1
    exact paths_single h1 (h2 trivial)

/-- C103, for any list of calls given to `run_calls`, which can also be one that no script has: one of finitely many simultaneous assignments, with an answer for each,
is done, whatever the store and however the calls end. -/
theorem C103_calls (calls : List Call) : ∃ paths : List (List (Str × Origin) × Reply), ∀ s : Mem, ∃ p ∈ paths,
    Assigned s (runCalls Graph.memOps common calls s).2 p.1 ∧ p.2.Is s (runCalls Graph.memOps common calls s).1 := by
  obtain ⟨P, h, _⟩ := loop_paths calls emptyNet
  exact ⟨P, h⟩

/-- C103, for any list of calls without `assert-fail`: the same simultaneous assignment, and answer, on all stores on which they succeed. -/
theorem C103_calls_single (calls : List Call) (h : ∀ c ∈ calls, c.name.text ≠ lit "assert-fail" ∧ WithoutAll (lit "assert-fail") c.args) :
    ∃ (A : List (Str × Origin)) (reply : Reply), ∀ (s : Mem) (v : Value), (runCalls Graph.memOps common calls s).1 = .ok v →
      Assigned s (runCalls Graph.memOps common calls s).2 A ∧ reply.Is s (.ok v) := by
  obtain ⟨P, h1, h2⟩ := loop_paths calls emptyNet
  exact paths_single h1 (h2 fun c hc => .inr (h c hc))

/-- C103, for scripts one after another: if all of them succeed, they amount to one simultaneous assignment, the same for all stores on which they do. -/
theorem C103_scripts (scripts : List Str) : ∃ A : List (Str × Origin), ∀ s : Mem,
    (∀ before q after, scripts = before ++ q :: after → ∃ v, (run Graph.memOps common q (afterScripts Graph.memOps before s)).1 = .ok v) →
      Assigned s (afterScripts Graph.memOps scripts s) A := by
  induction scripts with
  | nil => exact ⟨[], fun s _ => assigned_nil s⟩
  | cons q rest ih =>
    obtain ⟨A, _, h1⟩ := C103_script q
    obtain ⟨B, h2⟩ := ih
    refine ⟨comp A B, fun s h => ?_⟩
    obtain ⟨v, hv⟩ := h [] q rest rfl
    exact comp_assigned (h1 s v hv).1 (h2 _ fun before q' after e => h (q :: before) q' after (by rw [e]; rfl))

/-- C103, for scripts one after another, some of which can fail: one of finitely many simultaneous assignments, whatever the store. -/
theorem C103_scripts_any (scripts : List Str) : ∃ As : List (List (Str × Origin)), ∀ s : Mem, ∃ A ∈ As,
    Assigned s (afterScripts Graph.memOps scripts s) A := by
  induction scripts with
  | nil => exact ⟨[[]], fun s => ⟨[], List.mem_singleton.mpr rfl, assigned_nil s⟩⟩
  | cons q rest ih =>
    have h1 : ∃ As : List (List (Str × Origin)), ∀ s : Mem, ∃ A ∈ As, Assigned s (run Graph.memOps common q s).2 A := by
      by_cases hm : ∃ calls, Means q calls
      · obtain ⟨calls, hm⟩ := hm
        obtain ⟨P, h⟩ := C103_calls calls
        refine ⟨P.map Prod.fst, fun s => ?_⟩
        obtain ⟨p, hp, h, _⟩ := h s
        exact ⟨p.1, List.mem_map_of_mem hp, by rw [run_means _ _ hm s]; exact h⟩
      · exact ⟨[[]], fun s => ⟨[], List.mem_singleton.mpr rfl, by rw [(run_no_calls _ hm s).1]; exact assigned_nil s⟩⟩
    obtain ⟨As, h1⟩ := h1
    obtain ⟨Bs, h2⟩ := ih
    refine ⟨As.flatMap fun A => Bs.map (comp A), fun s => ?_⟩
    obtain ⟨A, hA, h1⟩ := h1 s
    obtain ⟨B, hB, h2⟩ := h2 (run Graph.memOps common q s).2
    exact ⟨_, List.mem_flatMap.mpr ⟨A, hA, List.mem_map_of_mem hB⟩, comp_assigned h1 h2⟩

/-! ## Cases -/

def swapScript : Str := lit "let t (read a), let a (read b), let b (read t), filter a ? r ?"

/-- A script that exchanges what two collections hold. -/
def swapCalls : List Call :=
  let el (w : String) : Value := .element (.of (lit w))
  [⟨.of (lit "let"), [el "t", .quote [el "read", el "a"]]⟩, ⟨.of (lit "let"), [el "a", .quote [el "read", el "b"]]⟩,
   ⟨.of (lit "let"), [el "b", .quote [el "read", el "t"]]⟩, ⟨.of (lit "filter"), [el "a", el "?", el "r", el "?"]⟩]

/-- `C103_script` for the exchange, and `C103_calls_single` for its calls. -/
example := C103_script swapScript
example := C103_calls_single swapCalls (by
  intro c hc
  simp only [swapCalls, List.mem_cons, List.not_mem_nil, or_false] at hc
  rcases hc with rfl | rfl | rfl | rfl <;> simp only [WithoutAll, Without] <;> decide +kernel)

def swapStore : Mem := (runOps Mem.ops Mem.new [.addCollection (lit "a"), .addTriples (lit "a") (BSet.ofList [⟨lit "x", lit "r", lit "y"⟩]),
  .addCollection (lit "b"), .addTriples (lit "b") (BSet.ofList [⟨lit "u", lit "r", lit "v"⟩, ⟨lit "u", lit "s", lit "v"⟩])]).2

/-- It succeeds on a store, exchanges the two, and its answer is a part of what `b` held at the start. -/
example : Graph.memOps.entries (run Graph.memOps common swapScript swapStore).2 (.of (lit "a")) = Graph.memOps.entries swapStore (.of (lit "b")) ∧
    Graph.memOps.entries (run Graph.memOps common swapScript swapStore).2 (.of (lit "b")) = Graph.memOps.entries swapStore (.of (lit "a")) ∧
    (run Graph.memOps common swapScript swapStore).1 = .ok (.network (BSet.ofList [.role (.of (lit "u")) (.of (lit "v")) (.of (lit "r"))])) := by
  decide +kernel

/-- Calls in which quotes nest and `assert-fail` is used can do one of several assignments; no script has them. -/
def branchCalls : List Call :=
  let el (w : String) : Value := .element (.of (lit w))
  [⟨.of (lit "assert-fail"), [.quote [el "assert-equal", .quote [el "read", el "b"], .quote [el "let", el "a", .network (BSet.ofList [.role (.of (lit "p")) (.of (lit "q")) (.of (lit "r"))])]]]⟩]

/-- Here `a` is assigned only if there is a `b`, and both runs succeed. -/
example : (runCalls Graph.memOps common branchCalls Mem.new).1 = .ok (.network ∅) ∧ (runCalls Graph.memOps common branchCalls Mem.new).2 = Mem.new ∧
    (runCalls Graph.memOps common branchCalls swapStore).1 = .ok (.network ∅) ∧
    Graph.memOps.entries (runCalls Graph.memOps common branchCalls swapStore).2 (.of (lit "a")) = .ok (BSet.ofList [.role (.of (lit "p")) (.of (lit "q")) (.of (lit "r"))]) :=
  ⟨by decide +kernel, by decide +kernel, by decide +kernel, by decide +kernel⟩

/-- Three scripts that exchange two collections: all succeed on a store. -/
def swapScripts : List Str := [lit "let t (read a)", lit "let a (read b)", lit "let b (read t)"]

example : ∃ A, Assigned swapStore (afterScripts Graph.memOps swapScripts swapStore) A := by
  obtain ⟨A, h⟩ := C103_scripts swapScripts
  refine ⟨A, h swapStore fun before q after e => ?_⟩
  match before, e with
  | [], e =>
    cases e
    exact ⟨.network ∅, by decide +kernel⟩
  | [_], e =>
    cases e
    exact ⟨.network ∅, by decide +kernel⟩
  | [_, _], e =>
    cases e
    exact ⟨.network ∅, by decide +kernel⟩
  | _ :: _ :: _ :: _, e => simp [swapScripts] at e

example := C103_scripts_any (lit "let a (read z)" :: swapScripts)

end Props
end Verif

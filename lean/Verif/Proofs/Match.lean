import Verif.Spec.Graph
import Verif.Model.TripsMem
/-!
# Proofs about query patterns with variables
-/
namespace Verif
namespace Mem
open Spec

/-- The variables of the slots seen so far. -/
def InSlots (v : Str) (l : List Slot) : Prop := .var v ∈ l

/-- Bindings collected from some slots describe exactly the assignments that instantiate these slots. -/
def Binds (l : List (Slot × Str)) (b : BMap Str Str) : Prop :=
  (∀ ρ, (∀ p ∈ l, SlotInst ρ p.1 p.2) ↔ ∀ v x, b.get? v = some x → ρ v = x) ∧
  ∀ v, (b.get? v).isSome ↔ InSlots v (l.map Prod.fst)

theorem binds_nil : Binds [] ∅ := ⟨by simp, by simp [InSlots]⟩

theorem matchFirst_eq (slot : Slot) (x : Str) : matchFirst slot x ∅ = matchNext slot x ∅ := by
  cases slot <;> simp [matchFirst, matchNext]

theorem matchNext_spec (slot : Slot) (x : Str) (l : List (Slot × Str)) (b : BMap Str Str) (h : Binds l b) :
    match matchNext slot x b with
    | some b' => Binds (l ++ [(slot, x)]) b'
    | none => ∀ ρ, ¬ ∀ p ∈ l ++ [(slot, x)], SlotInst ρ p.1 p.2 := by
  have hall : ∀ ρ, (∀ p ∈ l ++ [(slot, x)], SlotInst ρ p.1 p.2) ↔ (∀ p ∈ l, SlotInst ρ p.1 p.2) ∧ SlotInst ρ slot x := by
    intro ρ
    constructor
    · intro h; exact ⟨fun p hp => h p (by simp [hp]), h (slot, x) (by simp)⟩
    · rintro ⟨h, h'⟩ p hp
      rw [List.mem_append, List.mem_singleton] at hp
      rcases hp with hp | rfl
      · exact h p hp
      · exact h'
  cases slot with
  | any =>
    simp only [matchNext]
    refine ⟨fun ρ => by rw [hall, h.1 ρ]; simp [SlotInst], fun v => by rw [h.2 v]; simp [InSlots]⟩
  | val w =>
    simp only [matchNext]
    by_cases e : w = x
    · subst e
      simp only [if_pos]
      refine ⟨fun ρ => by rw [hall, h.1 ρ]; simp [SlotInst], fun v => by rw [h.2 v]; simp [InSlots]⟩
    · simp only [if_neg e]
      intro ρ; rw [hall]; rintro ⟨_, h'⟩; exact e h'
  | var v =>
    simp only [matchNext]
    cases hb : b.get? v with
    | some w =>
      simp only
      by_cases e : w = x
      · subst e
        simp only [if_pos]
        refine ⟨fun ρ => ?_, fun u => ?_⟩
        · rw [hall, h.1 ρ]
          constructor
          · rintro ⟨h, _⟩; exact h
          · intro h'; exact ⟨h', h' v w hb⟩
        · rw [h.2 u]
          simp only [InSlots, List.map_append, List.map_cons, List.map_nil, List.mem_append, List.mem_singleton, Slot.var.injEq]
          constructor
          · exact .inl
          · rintro (h' | rfl)
            · exact h'
            · exact (h.2 u).mp (by simp [hb])
      · simp only [if_neg e]
        intro ρ; rw [hall, h.1 ρ]
        rintro ⟨h', h''⟩
        exact e ((h' v w hb).symm.trans h'')
    | none =>
      refine ⟨fun ρ => ?_, fun u => ?_⟩
      · rw [hall, h.1 ρ]
        constructor
        · rintro ⟨h1, h2⟩ u y hu
          rw [BMap.get?_insert] at hu
          split at hu
          · rename_i e; subst e; cases hu; exact h2
          · exact h1 u y hu
        · intro h'
          refine ⟨fun u y hu => h' u y ?_, h' v x (by simp)⟩
          have : u ≠ v := by rintro rfl; rw [hb] at hu; cases hu
          rw [BMap.get?_insert_ne _ _ this]; exact hu
      · simp only [BMap.get?_insert, InSlots, List.map_append, List.map_cons, List.map_nil, List.mem_append, List.mem_singleton,
          Slot.var.injEq]
        split
        · rename_i e; subst e; simp
        · rename_i e
          rw [h.2 u]
          simp [InSlots, e]

theorem matchQuerySingle_spec (q : Query) (t : Trip) :
    match matchQuerySingle q t with
    | some b => Binds [(q.fst, t.fst), (q.snd, t.snd), (q.thd, t.thd)] b
    | none => ∀ ρ, ¬ Inst ρ q t := by
  have inst : ∀ ρ, Inst ρ q t ↔ ∀ p ∈ [(q.fst, t.fst), (q.snd, t.snd), (q.thd, t.thd)], SlotInst ρ p.1 p.2 := by
    intro ρ; simp [Inst]
  unfold matchQuerySingle
  rw [matchFirst_eq]
  have h1 := matchNext_spec q.fst t.fst [] ∅ binds_nil
  cases e1 : matchNext q.fst t.fst ∅ with
  | none =>
    rw [e1] at h1
    intro ρ h; rw [inst] at h
    exact h1 ρ (fun p hp => h p (by simp at hp; simp [hp]))
  | some b1 =>
    rw [e1] at h1
    have h2 := matchNext_spec q.snd t.snd _ b1 h1
    cases e2 : matchNext q.snd t.snd b1 with
    | none =>
      rw [e2] at h2
      simp only [e2]
      intro ρ h; rw [inst] at h
      exact h2 ρ (fun p hp => h p (by simp at hp; rcases hp with hp | hp <;> simp [hp]))
    | some b2 =>
      rw [e2] at h2
      have h3 := matchNext_spec q.thd t.thd _ b2 h2
      cases e3 : matchNext q.thd t.thd b2 with
      | none =>
        rw [e3] at h3
        simp only [e2, e3]
        intro ρ h; rw [inst] at h
        exact h3 ρ (fun p hp => h p (by simp at hp; rcases hp with hp | hp | hp <;> simp [hp]))
      | some b3 =>
        rw [e3] at h3
        simp only [e2, e3]
        simpa using h3

theorem matchQuery_eq (q : Query) (ts : BSet Trip) : matchQuery q ts = ts.toList.filterMap (matchQuerySingle q) := by
  unfold matchQuery
  suffices h : ∀ (l : List Trip) (acc : List (BMap Str Str)),
      l.foldl (fun results trip => match matchQuerySingle q trip with | some res => results ++ [res] | none => results) acc =
        acc ++ l.filterMap (matchQuerySingle q) by
    exact (h ts.toList []).trans (by simp)
  intro l
  induction l with
  | nil => intro acc; simp
  | cons a l ih =>
    intro acc
    rw [List.foldl_cons, ih, List.filterMap_cons]
    cases matchQuerySingle q a <;> simp

end Mem
end Verif

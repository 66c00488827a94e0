import Verif.Base.Order
/-!
# `BTreeSet` as a strictly sorted list
-/
namespace Verif
open SOrd

/-- Insert into a sorted list; an equal element already present is kept (`BTreeSet::insert`). -/
def insertL [SOrd α] (a : α) : List α → List α
  | [] => [a]
  | b :: l => if lt a b then a :: b :: l else if lt b a then b :: insertL a l else b :: l

/-- Remove from a list (`BTreeSet::remove`). -/
def eraseL [SOrd α] (a : α) : List α → List α
  | [] => []
  | b :: l => if lt a b || lt b a then b :: eraseL a l else eraseL a l

/-- Strictly ascending. -/
def Asc [SOrd α] (l : List α) : Prop := l.Pairwise (fun a b => lt a b = true)

theorem mem_insertL [SOrd α] (a x : α) : ∀ l : List α, x ∈ insertL a l ↔ x = a ∨ x ∈ l
  | [] => by simp [insertL]
  | b :: l => by
    unfold insertL
    split
    · simp
    · rename_i h1
      split
      · simp only [List.mem_cons, mem_insertL a x l]; grind
      · rename_i h2
        have : a = b := tri (by simpa using h1) (by simpa using h2)
        subst this
        simp

theorem asc_insertL [SOrd α] (a : α) : ∀ l : List α, Asc l → Asc (insertL a l)
  | [], _ => by simp [insertL, Asc]
  | b :: l, h => by
    unfold insertL
    unfold Asc at *
    split
    · rename_i h1
      rw [List.pairwise_cons] at h ⊢
      refine ⟨?_, List.pairwise_cons.mpr h⟩
      intro x hx
      rcases List.mem_cons.mp hx with rfl | hx
      · exact h1
      · exact trans h1 (h.1 x hx)
    · split
      · rename_i h2
        rw [List.pairwise_cons] at h ⊢
        refine ⟨?_, asc_insertL a l h.2⟩
        intro x hx
        rcases (mem_insertL a x l).mp hx with rfl | hx
        · exact h2
        · exact h.1 x hx
      · exact h

theorem mem_eraseL [SOrd α] (a x : α) : ∀ l : List α, x ∈ eraseL a l ↔ x ∈ l ∧ x ≠ a
  | [] => by simp [eraseL]
  | b :: l => by
    unfold eraseL
    split
    · rename_i h
      have hne : a ≠ b := by
        rintro rfl; simp [irrefl] at h
      simp only [List.mem_cons, mem_eraseL a x l]
      constructor
      · rintro (rfl | h')
        · exact ⟨.inl rfl, fun e => hne e.symm⟩
        · exact ⟨.inr h'.1, h'.2⟩
      · rintro ⟨rfl | h', h''⟩
        · exact .inl rfl
        · exact .inr ⟨h', h''⟩
    · rename_i h
      simp only [Bool.or_eq_true, not_or, Bool.not_eq_true] at h
      have : a = b := tri h.1 h.2
      subst this
      simp only [List.mem_cons, mem_eraseL a x l]
      grind

theorem asc_eraseL [SOrd α] (a : α) : ∀ l : List α, Asc l → Asc (eraseL a l)
  | [], _ => by simp [eraseL, Asc]
  | b :: l, h => by
    unfold Asc at h
    rw [List.pairwise_cons] at h
    unfold eraseL
    split
    · unfold Asc
      rw [List.pairwise_cons]
      exact ⟨fun x hx => h.1 x ((mem_eraseL a x l).mp hx).1, asc_eraseL a l h.2⟩
    · exact asc_eraseL a l h.2

/-- Two strictly ascending lists with the same members are equal. -/
theorem asc_ext [SOrd α] : ∀ {l m : List α}, Asc l → Asc m → (∀ x, x ∈ l ↔ x ∈ m) → l = m
  | [], [], _, _, _ => rfl
  | [], b :: m, _, _, h => by have := (h b).mpr (by simp); simp at this
  | a :: l, [], _, _, h => by have := (h a).mp (by simp); simp at this
  | a :: l, b :: m, hl, hm, h => by
    unfold Asc at hl hm
    rw [List.pairwise_cons] at hl hm
    have hab : a = b := by
      have ha := (h a).mp (by simp)
      have hb := (h b).mpr (by simp)
      rcases List.mem_cons.mp ha with e | ha
      · exact e
      rcases List.mem_cons.mp hb with e | hb
      · exact e.symm
      have h1 := hm.1 a ha
      have h2 := hl.1 b hb
      have := trans h1 h2
      rw [irrefl] at this; cases this
    subst hab
    have : l = m := asc_ext hl.2 hm.2 (by
      intro x
      have hx := h x
      simp only [List.mem_cons] at hx
      constructor
      · intro hxl
        rcases hx.mp (.inr hxl) with rfl | h'
        · have := hl.1 x hxl; rw [irrefl] at this; cases this
        · exact h'
      · intro hxm
        rcases hx.mpr (.inr hxm) with rfl | h'
        · have := hm.1 x hxm; rw [irrefl] at this; cases this
        · exact h')
    rw [this]

/-- Rust `BTreeSet<α>`. -/
structure BSet (α : Type u) [SOrd α] where
  toList : List α
  sorted : Asc toList

namespace BSet
variable {α : Type u} [SOrd α] {β : Type v} [SOrd β]

instance : Membership α (BSet α) := ⟨fun s a => a ∈ s.toList⟩

theorem mem_def {a : α} {s : BSet α} : a ∈ s ↔ a ∈ s.toList := Iff.rfl

instance [DecidableEq α] : DecidableEq (BSet α) := fun s t =>
  match s, t with
  | ⟨l, hl⟩, ⟨m, hm⟩ =>
    if h : l = m then isTrue (by subst h; rfl) else isFalse (by intro e; cases e; exact h rfl)

instance [DecidableEq α] (a : α) (s : BSet α) : Decidable (a ∈ s) :=
  inferInstanceAs (Decidable (a ∈ s.toList))

@[ext] theorem ext {s t : BSet α} (h : ∀ a, a ∈ s ↔ a ∈ t) : s = t := by
  cases s with | mk l hl =>
  cases t with | mk m hm =>
  have : l = m := asc_ext hl hm h
  subst this; rfl

theorem eq_of_toList {s t : BSet α} (h : s.toList = t.toList) : s = t := by
  cases s; cases t; cases h; rfl

/-- `BTreeSet::new` -/
def empty : BSet α := ⟨[], by simp [Asc]⟩
instance : EmptyCollection (BSet α) := ⟨empty⟩
instance : Inhabited (BSet α) := ⟨empty⟩

@[simp] theorem not_mem_empty (a : α) : ¬ a ∈ (∅ : BSet α) := by
  intro h; exact absurd (mem_def.mp h) (by simp [EmptyCollection.emptyCollection, empty])

@[simp] theorem toList_empty : (∅ : BSet α).toList = [] := rfl

/-- `BTreeSet::insert` -/
def insert (s : BSet α) (a : α) : BSet α := ⟨insertL a s.toList, asc_insertL a _ s.sorted⟩

@[simp] theorem mem_insert {s : BSet α} {a x : α} : x ∈ s.insert a ↔ x = a ∨ x ∈ s :=
  mem_insertL a x s.toList

/-- `BTreeSet::remove` -/
def erase (s : BSet α) (a : α) : BSet α := ⟨eraseL a s.toList, asc_eraseL a _ s.sorted⟩

@[simp] theorem mem_erase {s : BSet α} {a x : α} : x ∈ s.erase a ↔ x ∈ s ∧ x ≠ a :=
  mem_eraseL a x s.toList

/-- Insert all elements of a list, in order. -/
def insertAll (s : BSet α) (l : List α) : BSet α := l.foldl insert s

@[simp] theorem mem_insertAll {s : BSet α} {l : List α} {x : α} : x ∈ s.insertAll l ↔ x ∈ s ∨ x ∈ l := by
  unfold insertAll
  induction l generalizing s with
  | nil => simp
  | cons a l ih => simp only [List.foldl_cons, ih, mem_insert, List.mem_cons]; grind

/-- `BTreeSet::from_iter` / `collect()` -/
def ofList (l : List α) : BSet α := insertAll ∅ l

@[simp] theorem mem_ofList {l : List α} {x : α} : x ∈ ofList l ↔ x ∈ l := by
  simp [ofList]

/-- `BTreeSet::append` (into the receiver; the argument is left empty). -/
def union (s t : BSet α) : BSet α := insertAll s t.toList

@[simp] theorem mem_union {s t : BSet α} {x : α} : x ∈ s.union t ↔ x ∈ s ∨ x ∈ t := by
  simp [union, mem_insertAll, ← mem_def]

/-- Remove all elements of a list, in order. -/
def eraseAll (s : BSet α) (l : List α) : BSet α := l.foldl erase s

@[simp] theorem mem_eraseAll {s : BSet α} {l : List α} {x : α} : x ∈ s.eraseAll l ↔ x ∈ s ∧ x ∉ l := by
  unfold eraseAll
  induction l generalizing s with
  | nil => simp
  | cons a l ih => simp only [List.foldl_cons, ih, mem_erase, List.mem_cons]; grind

/-- `set.into_iter().map(f).collect::<BTreeSet<_>>()` -/
def map (f : α → β) (s : BSet α) : BSet β := ofList (s.toList.map f)

@[simp] theorem mem_map {f : α → β} {s : BSet α} {y : β} : y ∈ s.map f ↔ ∃ x, x ∈ s ∧ f x = y := by
  simp [map, ← mem_def]

theorem ofList_toList (s : BSet α) : ofList s.toList = s := by
  ext a; simp [← mem_def]

/-- `BTreeSet::is_empty` -/
def isEmpty (s : BSet α) : Bool := s.toList.isEmpty

theorem isEmpty_iff {s : BSet α} : s.isEmpty = true ↔ s = ∅ := by
  constructor
  · intro h; apply eq_of_toList; simpa [isEmpty, List.isEmpty_iff] using h
  · rintro rfl; rfl

theorem nodup (s : BSet α) : s.toList.Nodup := by
  have := s.sorted
  unfold Asc at this
  exact this.imp (fun h => ne_of_lt h)

end BSet
end Verif

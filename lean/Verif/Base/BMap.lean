import Verif.Base.BSet
/-!
# `BTreeMap` as a list of pairs strictly sorted by key
-/
namespace Verif
open SOrd

/-- `BTreeMap::insert` on the sorted representation: replaces the value of an equal key. -/
def insertKV [SOrd κ] (k : κ) (v : ν) : List (κ × ν) → List (κ × ν)
  | [] => [(k, v)]
  | (k', v') :: l =>
    if lt k k' then (k, v) :: (k', v') :: l
    else if lt k' k then (k', v') :: insertKV k v l
    else (k, v) :: l

/-- `BTreeMap::remove` -/
def eraseKV [SOrd κ] (k : κ) : List (κ × ν) → List (κ × ν)
  | [] => []
  | (k', v') :: l => if lt k k' || lt k' k then (k', v') :: eraseKV k l else l

/-- `BTreeMap::get` -/
def lookupKV [SOrd κ] (k : κ) : List (κ × ν) → Option ν
  | [] => none
  | (k', v') :: l => if lt k k' || lt k' k then lookupKV k l else some v'

theorem keys_insertKV [SOrd κ] (k : κ) (v : ν) (l : List (κ × ν)) :
    (insertKV k v l).map Prod.fst = insertL k (l.map Prod.fst) := by
  induction l with
  | nil => rfl
  | cons p l ih =>
    obtain ⟨k', v'⟩ := p
    simp only [insertKV, List.map_cons, insertL]
    split
    · rfl
    · split
      · simp [ih]
      · rename_i h1 h2
        have e : k = k' := tri (by simpa using h1) (by simpa using h2)
        subst e; rfl

theorem keys_eraseKV [SOrd κ] (k : κ) (l : List (κ × ν)) (h : Asc (l.map Prod.fst)) :
    (eraseKV k l).map Prod.fst = eraseL k (l.map Prod.fst) := by
  induction l with
  | nil => rfl
  | cons p l ih =>
    obtain ⟨k', v'⟩ := p
    unfold Asc at h
    simp only [List.map_cons, List.pairwise_cons] at h
    simp only [eraseKV, List.map_cons, eraseL]
    split
    · simp [ih h.2]
    · rename_i hk
      simp only [Bool.or_eq_true, not_or, Bool.not_eq_true] at hk
      have e := tri hk.1 hk.2
      subst e
      symm
      apply asc_ext (asc_eraseL _ _ h.2) h.2
      intro x
      rw [mem_eraseL]
      constructor
      · exact fun h => h.1
      · intro hx
        refine ⟨hx, ?_⟩
        rintro rfl
        have := h.1 x hx
        rw [irrefl] at this; cases this

theorem lookup_insertKV [SOrd κ] (k x : κ) (v : ν) (l : List (κ × ν)) :
    lookupKV x (insertKV k v l) = if lt x k || lt k x then lookupKV x l else some v := by
  induction l with
  | nil => simp [insertKV, lookupKV]
  | cons p l ih =>
    obtain ⟨k', v'⟩ := p
    unfold insertKV
    split
    · simp only [lookupKV]
    · rename_i h1
      split
      · rename_i h2
        simp only [lookupKV, ih]
        by_cases hx : (lt x k' || lt k' x) = true
        · simp [hx]
        · have : x = k' := by simp at hx; exact tri hx.1 hx.2
          subst this; simp [h2]
      · rename_i h2
        have : k = k' := tri (by simpa using h1) (by simpa using h2)
        subst this
        simp only [lookupKV]
        split <;> rfl

theorem lookupKV_none_of_not_mem [SOrd κ] (k : κ) (l : List (κ × ν)) (h : k ∉ l.map Prod.fst) :
    lookupKV k l = none := by
  induction l with
  | nil => rfl
  | cons p l ih =>
    obtain ⟨k', v'⟩ := p
    simp only [List.map_cons, List.mem_cons, not_or] at h
    unfold lookupKV
    split
    · exact ih h.2
    · rename_i hk
      simp only [Bool.or_eq_true, not_or, Bool.not_eq_true] at hk
      exact absurd (tri hk.1 hk.2) h.1

theorem lookup_eraseKV [SOrd κ] (k x : κ) (l : List (κ × ν)) (h : Asc (l.map Prod.fst)) :
    lookupKV x (eraseKV k l) = if lt x k || lt k x then lookupKV x l else none := by
  induction l with
  | nil => simp [eraseKV, lookupKV]
  | cons p l ih =>
    obtain ⟨k', v'⟩ := p
    unfold Asc at h
    simp only [List.map_cons, List.pairwise_cons] at h
    unfold eraseKV
    split
    · rename_i h1
      simp only [lookupKV, ih h.2]
      by_cases hx : (lt x k' || lt k' x) = true
      · simp [hx]
      · have : x = k' := by simp at hx; exact tri hx.1 hx.2
        subst this
        rw [Bool.or_comm] at h1
        simp [h1, irrefl]
    · rename_i h1
      simp only [Bool.or_eq_true, not_or, Bool.not_eq_true] at h1
      have e := tri h1.1 h1.2
      subst e
      by_cases hx : (lt x k || lt k x) = true
      · simp [hx, lookupKV]
      · simp only [hx]
        have : x = k := by simp at hx; exact tri hx.1 hx.2
        subst this
        simp only [Bool.false_eq_true, ↓reduceIte]
        apply lookupKV_none_of_not_mem
        intro hm
        have := h.1 x hm
        rw [irrefl] at this; cases this

theorem mem_of_lookupKV [SOrd κ] {k : κ} {v : ν} {l : List (κ × ν)} (h : lookupKV k l = some v) : (k, v) ∈ l := by
  induction l with
  | nil => simp [lookupKV] at h
  | cons p l ih =>
    obtain ⟨k', v'⟩ := p
    unfold lookupKV at h
    split at h
    · exact List.mem_cons_of_mem _ (ih h)
    · rename_i hk
      simp only [Bool.or_eq_true, not_or, Bool.not_eq_true] at hk
      rw [tri hk.1 hk.2]
      cases h; simp

theorem lookupKV_of_mem [SOrd κ] {k : κ} {v : ν} {l : List (κ × ν)} (hs : Asc (l.map Prod.fst)) (h : (k, v) ∈ l) :
    lookupKV k l = some v := by
  induction l with
  | nil => simp at h
  | cons p l ih =>
    obtain ⟨k', v'⟩ := p
    unfold Asc at hs
    simp only [List.map_cons, List.pairwise_cons] at hs
    unfold lookupKV
    rcases List.mem_cons.mp h with e | h
    · cases e; simp [irrefl]
    · have : lt k' k = true := hs.1 k (by simp only [List.mem_map]; exact ⟨(k, v), h, rfl⟩)
      simp [this, ih hs.2 h]

/-- Rust `BTreeMap<κ, ν>`. -/
structure BMap (κ : Type u) (ν : Type v) [SOrd κ] where
  toList : List (κ × ν)
  sorted : Asc (toList.map Prod.fst)

namespace BMap
variable {κ : Type u} {ν : Type v} [SOrd κ]

/-- `BTreeMap::new` -/
def empty : BMap κ ν := ⟨[], by simp [Asc]⟩
instance : EmptyCollection (BMap κ ν) := ⟨empty⟩
instance : Inhabited (BMap κ ν) := ⟨empty⟩

/-- `BTreeMap::get` -/
def get? (m : BMap κ ν) (k : κ) : Option ν := lookupKV k m.toList

/-- `BTreeMap::insert` -/
def insert (m : BMap κ ν) (k : κ) (v : ν) : BMap κ ν :=
  ⟨insertKV k v m.toList, by rw [keys_insertKV]; exact asc_insertL _ _ m.sorted⟩

/-- `BTreeMap::remove` -/
def erase (m : BMap κ ν) (k : κ) : BMap κ ν :=
  ⟨eraseKV k m.toList, by rw [keys_eraseKV _ _ m.sorted]; exact asc_eraseL _ _ m.sorted⟩

/-- `BTreeMap::keys` -/
def keys (m : BMap κ ν) : List κ := m.toList.map Prod.fst

instance [DecidableEq κ] [DecidableEq ν] : DecidableEq (BMap κ ν) := fun s t =>
  match s, t with
  | ⟨l, hl⟩, ⟨m, hm⟩ =>
    if h : l = m then isTrue (by subst h; rfl) else isFalse (by intro e; cases e; exact h rfl)

private theorem ne_iff (x k : κ) : (lt x k || lt k x) = true ↔ x ≠ k := by
  constructor
  · rintro h rfl; simp [irrefl] at h
  · intro h
    cases h1 : lt x k with
    | true => simp
    | false =>
      cases h2 : lt k x with
      | true => simp
      | false => exact absurd (tri h1 h2) h

@[simp] theorem get?_empty (k : κ) : (∅ : BMap κ ν).get? k = none := rfl

theorem get?_insert [DecidableEq κ] (m : BMap κ ν) (k x : κ) (v : ν) :
    (m.insert k v).get? x = if x = k then some v else m.get? x := by
  unfold get? insert
  simp only [lookup_insertKV]
  have := ne_iff x k
  by_cases h : x = k
  · subst h; simp [irrefl]
  · simp [this.mpr h, h]

@[simp] theorem get?_insert_self (m : BMap κ ν) (k : κ) (v : ν) : (m.insert k v).get? k = some v := by
  unfold get? insert; simp [lookup_insertKV, irrefl]

theorem get?_insert_ne (m : BMap κ ν) {k x : κ} (v : ν) (h : x ≠ k) : (m.insert k v).get? x = m.get? x := by
  unfold get? insert; simp only [lookup_insertKV, (ne_iff x k).mpr h]; rfl

theorem get?_erase [DecidableEq κ] (m : BMap κ ν) (k x : κ) :
    (m.erase k).get? x = if x = k then none else m.get? x := by
  unfold get? erase
  simp only [lookup_eraseKV _ _ _ m.sorted]
  have := ne_iff x k
  by_cases h : x = k
  · subst h; simp [irrefl]
  · simp [this.mpr h, h]

@[simp] theorem get?_erase_self (m : BMap κ ν) (k : κ) : (m.erase k).get? k = none := by
  unfold get? erase; simp [lookup_eraseKV _ _ _ m.sorted, irrefl]

theorem get?_erase_ne (m : BMap κ ν) {k x : κ} (h : x ≠ k) : (m.erase k).get? x = m.get? x := by
  unfold get? erase; simp only [lookup_eraseKV _ _ _ m.sorted, (ne_iff x k).mpr h]; rfl

theorem mem_toList_iff {m : BMap κ ν} {k : κ} {v : ν} : (k, v) ∈ m.toList ↔ m.get? k = some v :=
  ⟨fun h => lookupKV_of_mem m.sorted h, fun h => mem_of_lookupKV h⟩

theorem mem_keys {m : BMap κ ν} {k : κ} : k ∈ m.keys ↔ ∃ v, m.get? k = some v := by
  unfold keys
  simp only [List.mem_map]
  constructor
  · rintro ⟨⟨k', v⟩, h, rfl⟩; exact ⟨v, mem_toList_iff.mp h⟩
  · rintro ⟨v, h⟩; exact ⟨(k, v), mem_toList_iff.mpr h, rfl⟩

theorem mem_keys_isSome {m : BMap κ ν} {k : κ} : k ∈ m.keys ↔ (m.get? k).isSome := by
  rw [mem_keys, Option.isSome_iff_exists]

theorem keys_sorted (m : BMap κ ν) : Asc m.keys := m.sorted

theorem keys_nodup (m : BMap κ ν) : m.keys.Nodup := by
  have := m.sorted
  unfold Asc at this
  exact this.imp (fun h => ne_of_lt h)

theorem toList_eq (m : BMap κ ν) : m.toList = m.keys.filterMap (fun k => (m.get? k).map (fun v => (k, v))) := by
  have h : ∀ l : List (κ × ν), (∀ p ∈ l, m.get? p.1 = some p.2) →
      l = (l.map Prod.fst).filterMap (fun k => (m.get? k).map (fun v => (k, v))) := by
    intro l
    induction l with
    | nil => intro _; rfl
    | cons p l ih =>
      intro hp
      rw [List.map_cons, List.filterMap_cons, hp p List.mem_cons_self]
      simp only [Option.map_some]
      rw [← ih (fun q hq => hp q (List.mem_cons_of_mem _ hq))]
  exact h m.toList (fun p hp => mem_toList_iff.mp (by simpa using hp))

/-- Two maps with the same lookups are equal. -/
theorem ext_get {m m' : BMap κ ν} (h : ∀ k, m.get? k = m'.get? k) : m = m' := by
  have hk : m.keys = m'.keys := asc_ext m.keys_sorted m'.keys_sorted (fun k => by rw [mem_keys_isSome, mem_keys_isSome, h])
  have hl : m.toList = m'.toList := by
    rw [toList_eq m, toList_eq m', hk]
    congr 1; funext k; rw [h]
  cases m; cases m'; simp at hl; subst hl; rfl

end BMap
end Verif

import Verif.Spec.Serde
/-!
# Lemmas about JSON trees: reading back what was written
-/
namespace Verif
namespace Serde
open Display

/-! ## Types -/

theorem readOptional_optional (o : Option Str) : readOptional (optional o) = some o := by cases o <;> rfl

theorem readElement_shallow {d : Nat} (hd : d ≤ 1) (j : Json) : readElement d j = none := by
  unfold readElement
  split
  · rw [if_pos (by omega)]
  · rfl

theorem readElement_element {d : Nat} (hd : 2 ≤ d) (e : Element) : readElement d (element e) = some e := by
  have : d - 1 ≠ 0 := by omega
  simp [element, readElement, readStr, readOptional_optional, this]

theorem field_perm {ms known extra : List (Str × Json)} (h : ms.Perm (known ++ extra)) {name : Str} {j : Json}
    (hk : known.filter (fun m => decide (m.1 = name)) = [(name, j)]) (he : ∀ m ∈ extra, m.1 ≠ name) : field name ms = some j := by
  have h1 := h.filter (fun m => decide (m.1 = name))
  have h2 : extra.filter (fun m => decide (m.1 = name)) = [] := by
    rw [List.filter_eq_nil_iff]; intro m hm; simpa using he m hm
  rw [List.filter_append, hk, h2, List.append_nil] at h1
  rw [field, h1.eq_singleton]

theorem fields_two {d : Nat} (hd : 2 ≤ d) {a b : Str} (hab : a ≠ b) {ms extra : List (Str × Json)} {x y : Json}
    (h : ms.Perm ([(a, x), (b, y)] ++ extra)) (he : ∀ m ∈ extra, m.1 ∉ [a, b]) : fields d [a, b] (.obj ms) = some [x, y] := by
  have h1 := field_perm h (name := a) (j := x) (by simp [Ne.symm hab]) (fun m hm e => he m hm (by simp [e]))
  have h2 := field_perm h (name := b) (j := y) (by simp [hab]) (fun m hm e => he m hm (by simp [e]))
  have : d - 1 ≠ 0 := by omega
  simp [fields, h1, h2, this]

theorem fields_three {d : Nat} (hd : 2 ≤ d) {a b c : Str} (hab : a ≠ b) (hac : a ≠ c) (hbc : b ≠ c) {ms extra : List (Str × Json)} {x y z : Json}
    (h : ms.Perm ([(a, x), (b, y), (c, z)] ++ extra)) (he : ∀ m ∈ extra, m.1 ∉ [a, b, c]) :
    fields d [a, b, c] (.obj ms) = some [x, y, z] := by
  have h1 := field_perm h (name := a) (j := x) (by simp [Ne.symm hab, Ne.symm hac]) (fun m hm e => he m hm (by simp [e]))
  have h2 := field_perm h (name := b) (j := y) (by simp [hab, Ne.symm hbc]) (fun m hm e => he m hm (by simp [e]))
  have h3 := field_perm h (name := c) (j := z) (by simp [hac, hbc]) (fun m hm e => he m hm (by simp [e]))
  have : d - 1 ≠ 0 := by omega
  simp [fields, h1, h2, h3, this]

theorem variant_one {d : Nat} (hd : 2 ≤ d) (m : Str × Json) : variant d (.obj [m]) = some m := by
  rw [variant, if_neg (by omega)]

theorem readEntry_role {d : Nat} (hd : 4 ≤ d) {ms extra : List (Str × Json)} {f s r : Element}
    (h : ms.Perm ([(lit "first", element f), (lit "second", element s), (lit "role", element r)] ++ extra))
    (he : ∀ m ∈ extra, m.1 ∉ [lit "first", lit "second", lit "role"]) :
    readEntry d (.obj [(lit "Role", .obj ms)]) = some (.role f s r) := by
  have hf := fields_three (d := d - 1) (by omega) (by decide) (by decide) (by decide) h he
  rw [readEntry, variant_one (by omega)]
  simp only []
  rw [if_pos trivial, hf]
  simp [readElement_element (d := d - 2) (by omega)]

theorem readEntry_ext {d : Nat} (hd : 4 ≤ d) {ms extra : List (Str × Json)} {e c : Element}
    (h : ms.Perm ([(lit "element", element e), (lit "concept", element c)] ++ extra))
    (he : ∀ m ∈ extra, m.1 ∉ [lit "element", lit "concept"]) :
    readEntry d (.obj [(lit "Extends", .obj ms)]) = some (.ext e c) := by
  have hf := fields_two (d := d - 1) (by omega) (by decide) h he
  rw [readEntry, variant_one (by omega)]
  simp only []
  rw [if_neg (by decide), if_pos trivial, hf]
  simp [readElement_element (d := d - 2) (by omega)]

theorem readEntry_notExt {d : Nat} (hd : 4 ≤ d) {ms extra : List (Str × Json)} {e c : Element}
    (h : ms.Perm ([(lit "element", element e), (lit "concept", element c)] ++ extra))
    (he : ∀ m ∈ extra, m.1 ∉ [lit "element", lit "concept"]) :
    readEntry d (.obj [(lit "NotExtends", .obj ms)]) = some (.notExt e c) := by
  have hf := fields_two (d := d - 1) (by omega) (by decide) h he
  rw [readEntry, variant_one (by omega)]
  simp only []
  rw [if_neg (by decide), if_neg (by decide), if_pos trivial, hf]
  simp [readElement_element (d := d - 2) (by omega)]

theorem readEntry_entry {d : Nat} (hd : 4 ≤ d) (e : Entry) : readEntry d (entry e) = some e := by
  cases e with
  | role f s r => exact readEntry_role hd (extra := []) (by simp) (by simp)
  | ext f s => exact readEntry_ext hd (extra := []) (by simp) (by simp)
  | notExt f s => exact readEntry_notExt hd (extra := []) (by simp) (by simp)

theorem readEntry_shallow {d : Nat} (hd : d ≤ 3) (j : Json) : readEntry d j = none := by
  have h := readElement_shallow (d := d - 2) (by omega)
  unfold readEntry
  split
  · rfl
  · split
    · split
      · simp [h]
      · rfl
    · split
      · split
        · simp [h]
        · rfl
      · split
        · split
          · simp [h]
          · rfl
        · rfl

theorem mapM_readEntry {d : Nat} (hd : 4 ≤ d) (l : List Entry) : (l.map entry).mapM (readEntry d) = some l := by
  induction l with
  | nil => rfl
  | cons e l ih => simp [readEntry_entry hd, ih]

theorem readNetwork_list {d : Nat} (hd : 5 ≤ d) (l : List Entry) : readNetwork d (.arr (l.map entry)) = some (BSet.ofList l) := by
  rw [readNetwork, if_neg (by omega), mapM_readEntry (by omega)]; rfl

/-- The network of no entries needs no more than its brackets. -/
theorem readNetwork_network (d : Nat) (n : Network) :
    readNetwork d (network n) = if (if n = ∅ then 1 else 4) < d then some n else none := by
  rw [network]
  have e : (n.toList = []) ↔ n = ∅ := ⟨fun h => BSet.eq_of_toList h, fun h => by rw [h]; rfl⟩
  by_cases hn : n = ∅
  · rw [if_pos hn, e.mpr hn, readNetwork]
    by_cases hd : d - 1 = 0
    · rw [if_pos hd, if_neg (by omega)]
    · rw [if_neg hd, if_pos (by omega), hn]; rfl
  · rw [if_neg hn]
    by_cases hd : 4 < d
    · rw [if_pos hd, readNetwork_list (by omega), BSet.ofList_toList]
    · rw [if_neg hd, readNetwork]
      split
      · rfl
      · rcases hl : n.toList with _ | ⟨x, l⟩
        · exact absurd (e.mp hl) hn
        · rw [List.map_cons, List.mapM_cons, readEntry_shallow (by omega)]; rfl

mutual
theorem readValue_value : ∀ (v : Value) (d : Nat), readValue d (value v) = if Spec.jsonNesting v < d then some v else none
  | .element e, d => by
    have en : Spec.jsonNesting (.element e) = 2 := by rw [Spec.jsonNesting]
    rw [value, readValue.eq_def]; simp only []
    by_cases hd : d - 1 = 0
    · rw [if_pos hd, if_neg (by omega)]
    · rw [if_neg hd, if_pos trivial]
      by_cases h2 : 2 < d
      · rw [if_pos (by omega), readElement_element (by omega)]; rfl
      · rw [if_neg (by omega), readElement_shallow (by omega)]; rfl
  | .network n, d => by
    have en : Spec.jsonNesting (.network n) = if n = ∅ then 2 else 5 := by rw [Spec.jsonNesting]
    rw [value, readValue.eq_def]; simp only []
    by_cases hd : d - 1 = 0
    · rw [if_pos hd, if_neg (by split at en <;> omega)]
    · rw [if_neg hd, if_neg (by decide), if_pos trivial, readNetwork_network]
      by_cases hn : n = ∅
      · rw [if_pos hn] at en
        simp only [if_pos hn]
        by_cases h2 : 2 < d
        · rw [if_pos (by omega), if_pos (by omega)]; rfl
        · rw [if_neg (by omega), if_neg (by omega)]; rfl
      · rw [if_neg hn] at en
        simp only [if_neg hn]
        by_cases h2 : 5 < d
        · rw [if_pos (by omega), if_pos (by omega)]; rfl
        · rw [if_neg (by omega), if_neg (by omega)]; rfl
  | .quote vs, d => by
    have en : Spec.jsonNesting (.quote vs) = 2 + Spec.jsonNestings vs := by rw [Spec.jsonNesting]
    rw [value, readValue.eq_def]; simp only []
    by_cases hd : d - 1 = 0
    · rw [if_pos hd, if_neg (by omega)]
    · rw [if_neg hd, if_neg (by decide), if_neg (by decide), if_pos trivial]
      by_cases hd2 : d - 2 = 0
      · rw [if_pos hd2, if_neg (by omega)]
      · rw [if_neg hd2, readValues_values vs (d - 2) (by omega)]
        by_cases h2 : 2 + Spec.jsonNestings vs < d
        · rw [if_pos (by omega), if_pos (by omega)]; rfl
        · rw [if_neg (by omega), if_neg (by omega)]; rfl
theorem readValues_values : ∀ (vs : List Value) (d : Nat), 1 ≤ d →
    readValues d (values vs) = if Spec.jsonNestings vs < d then some vs else none
  | [], d, hd => by
    have en : Spec.jsonNestings [] = 0 := by rw [Spec.jsonNestings]
    rw [values, readValues.eq_def, if_pos (by omega)]
  | v :: vs, d, hd => by
    have en : Spec.jsonNestings (v :: vs) = max (Spec.jsonNesting v) (Spec.jsonNestings vs) := by rw [Spec.jsonNestings]
    rw [values, readValues.eq_def]; simp only []
    rw [readValue_value v d, readValues_values vs d hd]
    by_cases h1 : Spec.jsonNesting v < d
    · rw [if_pos h1]
      by_cases h2 : Spec.jsonNestings vs < d
      · rw [if_pos h2, if_pos (by omega)]; rfl
      · rw [if_neg h2, if_neg (by omega)]; rfl
    · rw [if_neg h1]; simp only []; rw [if_neg (by omega)]
end

theorem readCall_call {d : Nat} (hd : 3 ≤ d) (c : Call) :
    readCall d (call c) = if Spec.jsonNestings c.args + 2 < d then some c else none := by
  have hf := fields_two (d := d) (by omega) (a := lit "name") (b := lit "arguments") (by decide) (extra := [])
    (List.Perm.refl ([(lit "name", element c.name), (lit "arguments", .arr (values c.args))] ++ [])) (by simp)
  rw [List.append_nil] at hf
  rw [readCall, call, hf]
  simp only []
  rw [if_neg (by omega), readElement_element (by omega), readValues_values _ _ (by omega)]
  by_cases h : Spec.jsonNestings c.args + 2 < d
  · rw [if_pos h, if_pos (by omega)]; rfl
  · rw [if_neg h, if_neg (by omega)]; rfl

/-! ## Nesting -/

mutual
theorem nesting_bounds : ∀ v : Value, 2 * Spec.quoteNesting v ≤ Spec.jsonNesting v ∧ Spec.jsonNesting v ≤ 2 * Spec.quoteNesting v + 5
  | .element e => by simp [Spec.quoteNesting, Spec.jsonNesting]
  | .network n => by simp only [Spec.quoteNesting, Spec.jsonNesting]; split <;> omega
  | .quote vs => by have := nesting_boundss vs; simp only [Spec.quoteNesting, Spec.jsonNesting]; omega
theorem nesting_boundss : ∀ vs : List Value, 2 * Spec.quoteNestings vs ≤ Spec.jsonNestings vs ∧ Spec.jsonNestings vs ≤ 2 * Spec.quoteNestings vs + 5
  | [] => by simp [Spec.quoteNestings, Spec.jsonNestings]
  | v :: vs => by
    have h1 := nesting_bounds v; have h2 := nesting_boundss vs
    simp only [Spec.quoteNestings, Spec.jsonNestings]; omega
end

end Serde
end Verif

/-!
# Strict total orders

Rust's derived `Ord` on structs, tuples, enums and `String` is lexicographic.  `SOrd` is a decidable strict
total order; instances are built by lexicographic products, lists and pull-back along an injective map.
-/
namespace Verif

/-- A Rust `String`: a sequence of Unicode scalar values. -/
abbrev Str := List Char

/-- A decidable strict total order (what Rust's `Ord`/`Eq` contract promises; here with proofs). -/
class SOrd (α : Type u) where
  lt : α → α → Bool
  irrefl : ∀ a, lt a a = false
  trans : ∀ {a b c}, lt a b = true → lt b c = true → lt a c = true
  tri : ∀ {a b}, lt a b = false → lt b a = false → a = b

namespace SOrd

theorem asymm [SOrd α] {a b : α} (h : lt a b = true) : lt b a = false := by
  cases h' : lt b a with
  | false => rfl
  | true => have := trans h h'; rw [irrefl] at this; cases this

theorem ne_of_lt [SOrd α] {a b : α} (h : lt a b = true) : a ≠ b := by
  rintro rfl; rw [irrefl] at h; cases h

/-- Pull back an order along an injective map. -/
@[reducible] def comap [SOrd β] (f : α → β) (inj : ∀ a b, f a = f b → a = b) : SOrd α where
  lt a b := lt (f a) (f b)
  irrefl _ := irrefl _
  trans h h' := trans h h'
  tri h h' := inj _ _ (tri h h')

instance instNat : SOrd Nat where
  lt a b := decide (a < b)
  irrefl a := by simp
  trans h h' := by simp only [decide_eq_true_eq] at *; omega
  tri h h' := by simp only [decide_eq_false_iff_not] at *; omega

instance instChar : SOrd Char :=
  comap Char.toNat (fun _ _ h => Char.ext (UInt32.toNat_inj.mp h))

instance instUInt8 : SOrd UInt8 :=
  comap UInt8.toNat (fun _ _ h => UInt8.toNat_inj.mp h)

/-- Lexicographic order on pairs (Rust: derived order on tuples and structs). -/
def prodLt [SOrd α] [SOrd β] (x y : α × β) : Bool :=
  lt x.1 y.1 || (!lt y.1 x.1 && lt x.2 y.2)

instance instProd [SOrd α] [SOrd β] : SOrd (α × β) where
  lt := prodLt
  irrefl a := by simp [prodLt, irrefl]
  trans {a b c} h h' := by
    simp only [prodLt, Bool.or_eq_true, Bool.and_eq_true, Bool.not_eq_true'] at *
    rcases h with h | ⟨h1, h2⟩ <;> rcases h' with h' | ⟨h1', h2'⟩
    · exact .inl (trans h h')
    · cases e : lt b.1 c.1 with
      | true => exact .inl (trans h e)
      | false => exact .inl (tri e h1' ▸ h)
    · cases e : lt a.1 b.1 with
      | true => exact .inl (trans e h')
      | false => exact .inl (tri e h1 ▸ h')
    · cases e : lt a.1 c.1 with
      | true => exact .inl rfl
      | false =>
        refine .inr ⟨?_, trans h2 h2'⟩
        cases e1 : lt a.1 b.1 with
        | true =>
          cases e2 : lt b.1 c.1 with
          | true => rw [trans e1 e2] at e; cases e
          | false => rw [tri e2 h1'] at e1; rw [e1] at e; cases e
        | false => rw [tri e1 h1]; exact h1'
  tri {a b} h h' := by
    simp only [prodLt, Bool.or_eq_false_iff, Bool.and_eq_false_iff, Bool.not_eq_false'] at *
    obtain ⟨h1, h2⟩ := h
    obtain ⟨h1', h2'⟩ := h'
    have e1 := tri h1 h1'
    have e2 : a.2 = b.2 := by
      rcases h2 with h2 | h2
      · rw [h1'] at h2; cases h2
      · rcases h2' with h2' | h2'
        · rw [h1] at h2'; cases h2'
        · exact tri h2 h2'
    exact Prod.ext e1 e2

/-- Lexicographic order on lists, a proper prefix being smaller (Rust: order on `str` and slices). -/
def listLt [SOrd α] : List α → List α → Bool
  | [], [] => false
  | [], _ :: _ => true
  | _ :: _, [] => false
  | a :: as, b :: bs => lt a b || (!lt b a && listLt as bs)

theorem listLt_irrefl [SOrd α] : ∀ l : List α, listLt l l = false
  | [] => rfl
  | a :: as => by simp [listLt, irrefl, listLt_irrefl as]

theorem listLt_trans [SOrd α] : ∀ {x y z : List α}, listLt x y = true → listLt y z = true → listLt x z = true
  | [], [], _, h, _ => by simp [listLt] at h
  | [], _ :: _, [], _, h => by simp [listLt] at h
  | [], _ :: _, _ :: _, _, _ => rfl
  | _ :: _, [], _, h, _ => by simp [listLt] at h
  | _ :: _, _ :: _, [], _, h => by simp [listLt] at h
  | a :: as, b :: bs, c :: cs, h, h' => by
    simp only [listLt, Bool.or_eq_true, Bool.and_eq_true, Bool.not_eq_true'] at *
    rcases h with h | ⟨h1, h2⟩ <;> rcases h' with h' | ⟨h1', h2'⟩
    · exact .inl (trans h h')
    · cases e : lt b c with
      | true => exact .inl (trans h e)
      | false => exact .inl (tri e h1' ▸ h)
    · cases e : lt a b with
      | true => exact .inl (trans e h')
      | false => exact .inl (tri e h1 ▸ h')
    · cases e : lt a c with
      | true => exact .inl rfl
      | false =>
        refine .inr ⟨?_, listLt_trans h2 h2'⟩
        cases e1 : lt a b with
        | true =>
          cases e2 : lt b c with
          | true => rw [trans e1 e2] at e; cases e
          | false => rw [tri e2 h1'] at e1; rw [e1] at e; cases e
        | false => rw [tri e1 h1]; exact h1'

theorem listLt_tri [SOrd α] : ∀ {x y : List α}, listLt x y = false → listLt y x = false → x = y
  | [], [], _, _ => rfl
  | [], _ :: _, h, _ => by simp [listLt] at h
  | _ :: _, [], _, h => by simp [listLt] at h
  | a :: as, b :: bs, h, h' => by
    simp only [listLt, Bool.or_eq_false_iff, Bool.and_eq_false_iff, Bool.not_eq_false'] at *
    obtain ⟨h1, h2⟩ := h
    obtain ⟨h1', h2'⟩ := h'
    have e2 : as = bs := by
      rcases h2 with h2 | h2
      · rw [h1'] at h2; cases h2
      · rcases h2' with h2' | h2'
        · rw [h1] at h2'; cases h2'
        · exact listLt_tri h2 h2'
    rw [tri h1 h1', e2]

instance instList [SOrd α] : SOrd (List α) where
  lt := listLt
  irrefl := listLt_irrefl
  trans := listLt_trans
  tri := listLt_tri

/-- `None < Some _` (Rust: derived order on `Option`). -/
def optLt [SOrd α] : Option α → Option α → Bool
  | none, some _ => true
  | some a, some b => lt a b
  | _, none => false

instance instOption [SOrd α] : SOrd (Option α) where
  lt := optLt
  irrefl a := by cases a <;> simp [optLt, irrefl]
  trans {a b c} h h' := by
    cases a <;> cases b <;> cases c <;> simp [optLt] at *
    exact trans h h'
  tri {a b} h h' := by
    cases a <;> cases b <;> simp [optLt] at *
    exact tri h h'

end SOrd
end Verif

import Verif.Model.TripsHeed
/-!
# Index keys of the LMDB store: encoding, decoding, order
-/
namespace Verif
namespace Heed
open SOrd

/-- The number a byte string denotes, most significant byte first. -/
def beVal : List UInt8 → Nat
  | [] => 0
  | b :: l => b.toNat * 256 ^ l.length + beVal l

theorem foldl_be (l : List UInt8) : ∀ acc : Nat,
    l.foldl (fun (acc : Nat) (b : UInt8) => acc * 256 + b.toNat) acc = acc * 256 ^ l.length + beVal l := by
  induction l with
  | nil => intro acc; simp [beVal]
  | cons b l ih =>
    intro acc
    simp only [List.foldl_cons, ih, beVal, List.length_cons, Nat.pow_succ]
    rw [Nat.add_mul, Nat.mul_assoc, Nat.mul_comm 256, Nat.add_assoc]

theorem beVal_lt (l : List UInt8) : beVal l < 256 ^ l.length := by
  induction l with
  | nil => simp [beVal]
  | cons b l ih =>
    simp only [beVal, List.length_cons, Nat.pow_succ]
    have hb : b.toNat < 256 := b.toNat_lt
    have : b.toNat * 256 ^ l.length + 256 ^ l.length ≤ 256 ^ l.length * 256 := by
      have h : b.toNat + 1 ≤ 256 := hb
      calc b.toNat * 256 ^ l.length + 256 ^ l.length = (b.toNat + 1) * 256 ^ l.length := by rw [Nat.add_mul, Nat.one_mul]
        _ ≤ 256 * 256 ^ l.length := Nat.mul_le_mul_right _ h
        _ = _ := Nat.mul_comm _ _
    omega

@[simp] theorem beBytes_length (n : Nat) : (beBytes n).length = 8 := rfl

theorem readId_of_length {l : List UInt8} (h : l.length = 8) : readId l = beVal l := by
  unfold readId
  rw [List.take_append_of_le_length (by omega), List.take_of_length_le (by omega), foldl_be]
  simp

theorem beVal_beBytes {n : Nat} (h : n < 2 ^ 64) : beVal (beBytes n) = n := by
  simp only [beBytes, beVal, UInt8.toNat_ofNat', List.length_cons, List.length_nil]
  simp only [Nat.reduceAdd, Nat.reducePow, Nat.mul_one, Nat.add_zero] at *
  have d2 : n / 65536 = n / 256 / 256 := by omega
  have d3 : n / 16777216 = n / 256 / 256 / 256 := by omega
  have d4 : n / 4294967296 = n / 256 / 256 / 256 / 256 := by omega
  have d5 : n / 1099511627776 = n / 256 / 256 / 256 / 256 / 256 := by omega
  have d6 : n / 281474976710656 = n / 256 / 256 / 256 / 256 / 256 / 256 := by omega
  have d7 : n / 72057594037927936 = n / 256 / 256 / 256 / 256 / 256 / 256 / 256 := by omega
  omega

theorem readId_beBytes {n : Nat} (h : n < 2 ^ 64) : readId (beBytes n) = n := by
  rw [readId_of_length rfl, beVal_beBytes h]

theorem beBytes_inj {m n : Nat} (hm : m < 2 ^ 64) (hn : n < 2 ^ 64) (h : beBytes m = beBytes n) : m = n := by
  rw [← beVal_beBytes hm, ← beVal_beBytes hn, h]

/-- Comparing equally long byte strings compares the numbers they denote. -/
theorem listLt_beVal : ∀ (l m : List UInt8), l.length = m.length → (lt l m = true ↔ beVal l < beVal m)
  | [], [], _ => by simp [lt, listLt, beVal]
  | a :: l, b :: m, h => by
    have hl : l.length = m.length := by simpa using h
    have ih := listLt_beVal l m hl
    have h1 := beVal_lt l
    have h2 := beVal_lt m
    rw [hl] at h1
    change listLt (a :: l) (b :: m) = true ↔ _
    have e : lt a b = decide (a.toNat < b.toNat) := rfl
    have e' : lt b a = decide (b.toNat < a.toNat) := rfl
    change (lt a b || (!lt b a && listLt l m)) = true ↔ _
    have ih : listLt l m = true ↔ beVal l < beVal m := ih
    simp only [beVal, e, e', hl, Bool.or_eq_true, Bool.and_eq_true, Bool.not_eq_true', decide_eq_true_eq,
      decide_eq_false_iff_not, ih]
    generalize 256 ^ m.length = P at *
    generalize a.toNat = x at *
    generalize b.toNat = y at *
    constructor
    · rintro (h | ⟨h, h'⟩)
      · have : (x + 1) * P ≤ y * P := Nat.mul_le_mul_right _ h
        rw [Nat.add_mul, Nat.one_mul] at this
        omega
      · have : x * P ≤ y * P := Nat.mul_le_mul_right _ (by omega)
        omega
    · intro h
      rcases Nat.lt_trichotomy x y with hxy | hxy | hxy
      · exact .inl hxy
      · subst hxy; exact .inr ⟨by omega, by omega⟩
      · have : (y + 1) * P ≤ x * P := Nat.mul_le_mul_right _ hxy
        rw [Nat.add_mul, Nat.one_mul] at this
        omega

/-- The key of four identifiers. -/
def key (a b c d : Nat) : List UInt8 := mergeArrays (beBytes a) (beBytes b) (beBytes c) (beBytes d)

@[simp] theorem key_length (a b c d : Nat) : (key a b c d).length = 32 := rfl

theorem key_take (a b c d : Nat) : (key a b c d).take 8 = beBytes a := rfl
theorem key_drop8 (a b c d : Nat) : ((key a b c d).drop 8).take 8 = beBytes b := rfl
theorem key_drop16 (a b c d : Nat) : ((key a b c d).drop 16).take 8 = beBytes c := rfl
theorem key_drop24 (a b c d : Nat) : ((key a b c d).drop 24).take 8 = beBytes d := rfl

theorem key_inj {a b c d a' b' c' d' : Nat} (ha : a < 2 ^ 64) (hb : b < 2 ^ 64) (hc : c < 2 ^ 64) (hd : d < 2 ^ 64)
    (ha' : a' < 2 ^ 64) (hb' : b' < 2 ^ 64) (hc' : c' < 2 ^ 64) (hd' : d' < 2 ^ 64)
    (h : key a b c d = key a' b' c' d') : a = a' ∧ b = b' ∧ c = c' ∧ d = d' := by
  refine ⟨beBytes_inj ha ha' ?_, beBytes_inj hb hb' ?_, beBytes_inj hc hc' ?_, beBytes_inj hd hd' ?_⟩
  · rw [← key_take a b c d, h, key_take]
  · rw [← key_drop8 a b c d, h, key_drop8]
  · rw [← key_drop16 a b c d, h, key_drop16]
  · rw [← key_drop24 a b c d, h, key_drop24]

theorem beVal_append (l m : List UInt8) : beVal (l ++ m) = beVal l * 256 ^ m.length + beVal m := by
  induction l with
  | nil => simp [beVal]
  | cons b l ih =>
    simp only [List.cons_append, beVal, ih, List.length_append, Nat.pow_add]
    rw [Nat.add_mul, Nat.mul_assoc, Nat.add_assoc]

end Heed
end Verif

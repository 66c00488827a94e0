import Verif.Spec.Order
/-!
# C56: order and networks
-/
namespace Verif
namespace Props
open Spec

/-! ## The model's order by code points is the order of the bytes -/

theorem utf8_ne (c : Char) : ∃ a l, utf8 c = a :: l := by
  simp only [utf8]
  split
  · exact ⟨_, _, rfl⟩
  · split
    · exact ⟨_, _, rfl⟩
    · split <;> exact ⟨_, _, rfl⟩

theorem lex_append {l x y : List Nat} : Lex (· < ·) x y → Lex (· < ·) (l ++ x) (l ++ y) := by
  intro h
  induction l with
  | nil => exact h
  | cons a l ih => exact .later ih

theorem utf8_lt {c d : Char} (h : c.toNat < d.toNat) (x y : List Nat) : Lex (· < ·) (utf8 c ++ x) (utf8 d ++ y) := by
  have two : ∀ {a b a' b' : Nat} {x y : List Nat}, (a < b ∨ a = b ∧ a' < b') → Lex (· < ·) (a :: a' :: x) (b :: b' :: y) := by
    rintro a b a' b' x y (h | ⟨rfl, h⟩)
    · exact .here h
    · exact .later (.here h)
  have three : ∀ {a b a' b' a'' b'' : Nat} {x y : List Nat}, (a < b ∨ a = b ∧ (a' < b' ∨ a' = b' ∧ a'' < b'')) →
      Lex (· < ·) (a :: a' :: a'' :: x) (b :: b' :: b'' :: y) := by
    rintro a b a' b' a'' b'' x y (h | ⟨rfl, h⟩)
    · exact .here h
    · exact .later (two h)
  have four : ∀ {a b a' b' a'' b'' a3 b3 : Nat} {x y : List Nat}, (a < b ∨ a = b ∧ (a' < b' ∨ a' = b' ∧ (a'' < b'' ∨ a'' = b'' ∧ a3 < b3))) →
      Lex (· < ·) (a :: a' :: a'' :: a3 :: x) (b :: b' :: b'' :: b3 :: y) := by
    rintro a b a' b' a'' b'' a3 b3 x y (h | ⟨rfl, h⟩)
    · exact .here h
    · exact .later (three h)
  simp only [utf8]
  generalize c.toNat = n at h
  generalize d.toNat = m at h
  by_cases h1 : n < 0x80
  · rw [if_pos h1]
    by_cases h2 : m < 0x80
    · rw [if_pos h2]; exact .here h
    · rw [if_neg h2]
      split
      · exact .here (by omega)
      · split <;> exact .here (by omega)
  · rw [if_neg h1, if_neg (show ¬ m < 0x80 by omega)]
    by_cases h2 : n < 0x800
    · rw [if_pos h2]
      by_cases h3 : m < 0x800
      · rw [if_pos h3]; exact two (by omega)
      · rw [if_neg h3]
        split <;> exact .here (by omega)
    · rw [if_neg h2, if_neg (show ¬ m < 0x800 by omega)]
      by_cases h3 : n < 0x10000
      · rw [if_pos h3]
        split
        · exact three (by omega)
        · exact .here (by omega)
      · rw [if_neg h3, if_neg (show ¬ m < 0x10000 by omega)]
        exact four (by omega)

theorem lex_asymm {r : α → α → Prop} (hi : ∀ a, ¬ r a a) (ht : ∀ a b c, r a b → r b c → r a c) {l m : List α} (h : Lex r l m) : ¬ Lex r m l := by
  induction h with
  | shorter => intro h; cases h
  | here h1 =>
    intro h
    cases h with
    | here h2 => exact hi _ (ht _ _ _ h1 h2)
    | later => exact hi _ h1
  | later _ ih =>
    intro h
    cases h with
    | here h2 => exact hi _ h2
    | later h => exact ih h

/-- The model's order on texts is Rust's. -/
theorem textLt_iff {s t : Str} : SOrd.lt s t = true ↔ TextLt s t := by
  have fwd : ∀ s t : Str, SOrd.listLt s t = true → TextLt s t := by
    intro s
    induction s with
    | nil =>
      intro t h
      cases t with
      | nil => cases h
      | cons d t =>
        obtain ⟨a, l, e⟩ := utf8_ne d
        rw [TextLt, List.flatMap_nil, List.flatMap_cons, e]
        exact .shorter
    | cons c s ih =>
      intro t h
      cases t with
      | nil => cases h
      | cons d t =>
        rw [TextLt, List.flatMap_cons, List.flatMap_cons]
        simp only [SOrd.listLt, Bool.or_eq_true, Bool.and_eq_true, Bool.not_eq_true'] at h
        rcases h with h | ⟨h1, h2⟩
        · exact utf8_lt (by simpa [SOrd.instChar, SOrd.comap, SOrd.instNat, SOrd.lt] using h) _ _
        · by_cases e : c.toNat < d.toNat
          · exact utf8_lt e _ _
          · have h1' : ¬ d.toNat < c.toNat := by simpa [SOrd.instChar, SOrd.comap, SOrd.instNat, SOrd.lt] using h1
            have : c = d := Char.toNat_inj.mp (by omega)
            subst this
            exact lex_append (ih t h2)
  constructor
  · exact fwd s t
  · intro h
    cases hl : SOrd.lt s t with
    | true => rfl
    | false =>
      exfalso
      have hasym := lex_asymm (r := fun a b : Nat => a < b) (fun a => Nat.lt_irrefl a) (fun a b c => Nat.lt_trans) h
      cases hr : SOrd.lt t s with
      | true => exact hasym (fwd t s hr)
      | false =>
        have := SOrd.tri hl hr
        subst this
        exact hasym h

theorem optLt_iff {s t : Option Str} : SOrd.lt s t = true ↔ OptLt s t := by
  cases s <;> cases t <;> simp only [SOrd.lt, SOrd.optLt, OptLt]
  · decide
  · decide
  · exact textLt_iff

theorem prod_iff [SOrd α] [SOrd β] {x y : α × β} : SOrd.lt x y = true ↔ SOrd.lt x.1 y.1 = true ∨ (x.1 = y.1 ∧ SOrd.lt x.2 y.2 = true) := by
  show SOrd.prodLt x y = true ↔ _
  simp only [SOrd.prodLt, Bool.or_eq_true, Bool.and_eq_true, Bool.not_eq_true']
  constructor
  · rintro (h | ⟨h1, h2⟩)
    · exact .inl h
    · cases h : SOrd.lt x.1 y.1 with
      | true => exact .inl rfl
      | false => exact .inr ⟨SOrd.tri h h1, h2⟩
  · rintro (h | ⟨h1, h2⟩)
    · exact .inl h
    · exact .inr ⟨by rw [h1]; exact SOrd.irrefl _, h2⟩

theorem elementLt_iff {a b : Element} : SOrd.lt a b = true ↔ ElementLt a b := by
  show SOrd.lt (a.text, a.ns, a.lang) (b.text, b.ns, b.lang) = true ↔ _
  rw [prod_iff, prod_iff, textLt_iff, optLt_iff, optLt_iff]
  rfl

theorem optElementLt_none {a b : Option Element} (ha : a = none) (hb : b = none) : SOrd.lt a b = false := by
  subst ha; subst hb; rfl

theorem entryLt_iff {e f : Entry} : SOrd.lt e f = true ↔ EntryLt e f := by
  show SOrd.lt e.key f.key = true ↔ _
  have hnat : ∀ a b : Nat, (SOrd.lt a b = true) ↔ a < b := fun a b => by simp [SOrd.lt]
  rw [prod_iff, prod_iff, prod_iff, hnat, elementLt_iff, elementLt_iff]
  cases e <;> cases f <;> simp [Entry.key, EntryLt, SOrd.lt, SOrd.optLt]
  rename_i r _ _ r2
  rw [← elementLt_iff (a := r) (b := r2)]
  rfl

theorem tripLt_iff {t u : Trip} : SOrd.lt t u = true ↔ TripLt t u := by
  show SOrd.lt (t.fst, t.snd, t.thd) (u.fst, u.snd, u.thd) = true ↔ _
  rw [prod_iff, prod_iff, textLt_iff, textLt_iff, textLt_iff]
  rfl

theorem strictTotal_of [SOrd α] {r : α → α → Prop} (h : ∀ {a b}, SOrd.lt a b = true ↔ r a b) : StrictTotal r where
  irrefl a ha := by rw [← h, SOrd.irrefl] at ha; cases ha
  trans a b c h1 h2 := h.mp (SOrd.trans (h.mpr h1) (h.mpr h2))
  total a b := by
    cases h1 : SOrd.lt a b with
    | true => exact .inl (h.mp h1)
    | false =>
      cases h2 : SOrd.lt b a with
      | true => exact .inr (.inr (h.mp h2))
      | false => exact .inr (.inl (SOrd.tri h1 h2))

/-- C56: the orders Rust derives, on the UTF-8 bytes of the texts, are strict total orders: of any two different texts, elements,
entries or triples exactly one comes first. -/
theorem C56_total_orders : StrictTotal TextLt ∧ StrictTotal ElementLt ∧ StrictTotal EntryLt ∧ StrictTotal TripLt :=
  ⟨strictTotal_of textLt_iff, strictTotal_of elementLt_iff, strictTotal_of entryLt_iff, strictTotal_of tripLt_iff⟩

/-- C56: a network iterates its entries in strictly ascending order. -/
theorem C56_ascending (n : Network) : n.toList.Pairwise EntryLt :=
  n.sorted.imp fun h => entryLt_iff.mp h

/-- C56: whatever is inserted in whatever order and however often, the iteration is the one strictly ascending list of the entries
inserted. -/
theorem C56_insertion_order (inserted : List Entry) (l : List Entry) :
    (inserted.foldl (fun n e => n.insert e) (∅ : Network)).toList = l ↔ l.Pairwise EntryLt ∧ ∀ e, e ∈ l ↔ e ∈ inserted := by
  have hm : ∀ e, e ∈ (inserted.foldl (fun n e => n.insert e) (∅ : Network)) ↔ e ∈ inserted := by
    intro e
    have := BSet.mem_insertAll (s := (∅ : Network)) (l := inserted) (x := e)
    simpa [BSet.insertAll] using this
  constructor
  · rintro rfl
    exact ⟨C56_ascending _, hm⟩
  · rintro ⟨h1, h2⟩
    have hasc : Asc l := h1.imp fun h => entryLt_iff.mpr h
    have : (inserted.foldl (fun n e => n.insert e) (∅ : Network)) = ⟨l, hasc⟩ := BSet.ext fun e => (hm e).trans (h2 e).symm
    rw [this]

/-- C56: two networks are equal exactly if they have the same entries, and then they iterate alike. -/
theorem C56_equal (n m : Network) : (n = m ↔ ∀ e, e ∈ n ↔ e ∈ m) ∧ (n = m ↔ n.toList = m.toList) :=
  ⟨⟨by rintro rfl; simp, fun h => BSet.ext h⟩, ⟨by rintro rfl; rfl, BSet.eq_of_toList⟩⟩

/-- C56: the same for sets of triples. -/
theorem C56_triples (s : BSet Trip) : s.toList.Pairwise TripLt ∧
    ∀ l : List Trip, l.Pairwise TripLt → (∀ t, t ∈ l ↔ t ∈ s) → s.toList = l := by
  refine ⟨s.sorted.imp fun h => tripLt_iff.mp h, ?_⟩
  intro l hl hm
  have hasc : Asc l := hl.imp fun h => tripLt_iff.mpr h
  have : s = ⟨l, hasc⟩ := BSet.ext fun t => (hm t).symm
  rw [this]

example : TextLt (lit "Z") (lit "a") ∧ TextLt (lit "a") (lit "aa") ∧ TextLt (lit "é") (lit "一") ∧ TextLt (lit "一") (lit "😀") ∧
    EntryLt (.role ⟨lit "z", none, none⟩ ⟨lit "z", none, none⟩ ⟨lit "z", none, none⟩) (.ext ⟨lit "a", none, none⟩ ⟨lit "a", none, none⟩) ∧
    ElementLt ⟨lit "a", none, some (lit "en")⟩ ⟨lit "a", some [], none⟩ := by
  refine ⟨textLt_iff.mp ?_, textLt_iff.mp ?_, textLt_iff.mp ?_, textLt_iff.mp ?_, trivial, elementLt_iff.mp ?_⟩ <;> decide

end Props
end Verif

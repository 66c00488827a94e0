import Verif.Spec.Rename
import Verif.Proofs.Mem
import Verif.Proofs.Graph
import Verif.Proofs.Eval
/-!
# Renaming texts commutes with everything
-/
namespace Verif
namespace Ren
open Spec Eval

variable {f : Str → Str}

theorem renElement_inj (hf : Renames f) {a b : Element} (h : renElement f a = renElement f b) : a = b := by
  cases a; cases b
  simp only [renElement, Element.mk.injEq] at h
  obtain ⟨h1, h2, h3⟩ := h
  rw [hf.inj _ _ h1, h2, h3]

theorem renEntry_inj (hf : Renames f) {a b : Entry} (h : renEntry f a = renEntry f b) : a = b := by
  cases a <;> cases b <;> simp only [renEntry, Entry.role.injEq, Entry.ext.injEq, Entry.notExt.injEq, reduceCtorEq] at h
  · rw [renElement_inj hf h.1, renElement_inj hf h.2.1, renElement_inj hf h.2.2]
  · rw [renElement_inj hf h.1, renElement_inj hf h.2]
  · rw [renElement_inj hf h.1, renElement_inj hf h.2]

theorem renTrip_inj (hi : ∀ x y, f x = f y → x = y) {a b : Trip} (h : renTrip f a = renTrip f b) : a = b := by
  cases a; cases b
  simp only [renTrip, Trip.mk.injEq] at h
  rw [hi _ _ h.1, hi _ _ h.2.1, hi _ _ h.2.2]

theorem map_inj [SOrd α] {g : α → α} (hg : ∀ a b, g a = g b → a = b) {s t : BSet α} (h : s.map g = t.map g) : s = t := by
  have key : ∀ s t : BSet α, s.map g = t.map g → ∀ a, a ∈ s → a ∈ t := by
    intro s t h a ha
    have : g a ∈ t.map g := by rw [← h]; exact BSet.mem_map.mpr ⟨a, ha, rfl⟩
    obtain ⟨b, hb, e⟩ := BSet.mem_map.mp this
    rw [hg _ _ e] at hb; exact hb
  exact BSet.ext fun a => ⟨key s t h a, key t s h.symm a⟩

mutual
theorem renValue_inj (hf : Renames f) : ∀ a b : Value, renValue f a = renValue f b → a = b
  | .element a, .element b, h => by
    simp only [renValue, Value.element.injEq] at h
    rw [renElement_inj hf h]
  | .network a, .network b, h => by
    simp only [renValue, Value.network.injEq] at h
    rw [map_inj (fun _ _ => renEntry_inj hf) h]
  | .quote a, .quote b, h => by
    simp only [renValue, Value.quote.injEq] at h
    rw [renValues_inj hf a b h]
  | .element _, .network _, h => by simp [renValue] at h
  | .element _, .quote _, h => by simp [renValue] at h
  | .network _, .element _, h => by simp [renValue] at h
  | .network _, .quote _, h => by simp [renValue] at h
  | .quote _, .network _, h => by simp [renValue] at h
  | .quote _, .element _, h => by simp [renValue] at h
theorem renValues_inj (hf : Renames f) : ∀ a b : List Value, renValues f a = renValues f b → a = b
  | [], [], _ => rfl
  | [], _ :: _, h => by simp [renValues] at h
  | _ :: _, [], h => by simp [renValues] at h
  | a :: as, b :: bs, h => by
    simp only [renValues, List.cons.injEq] at h
    rw [renValue_inj hf a b h.1, renValues_inj hf as bs h.2]
end

/-! ## The graph layer -/

theorem colon_iff (hf : Renames f) (x : Str) : f x = colonS ↔ x = colonS :=
  ⟨fun h => hf.inj _ _ (h.trans hf.colon.symm), fun h => by rw [h]; exact hf.colon⟩

theorem notColon_iff (hf : Renames f) (x : Str) : f x = notColonS ↔ x = notColonS :=
  ⟨fun h => hf.inj _ _ (h.trans hf.notColon.symm), fun h => by rw [h]; exact hf.notColon⟩

theorem entryToTrip_ren (hf : Renames f) (e : Entry) : Graph.entryToTrip (renEntry f e) = renTrip f (Graph.entryToTrip e) := by
  cases e with
  | role a b r => rfl
  | ext a b => simp only [renEntry, Graph.entryToTrip, renTrip, renElement]; rw [show f colonS = colonS from hf.colon]
  | notExt a b => simp only [renEntry, Graph.entryToTrip, renTrip, renElement]; rw [show f notColonS = notColonS from hf.notColon]

theorem tripToEntry_ren (hf : Renames f) (t : Trip) : Graph.tripToEntry (renTrip f t) = renEntry f (Graph.tripToEntry t) := by
  simp only [Graph.tripToEntry, renTrip, colon_iff hf, notColon_iff hf]
  split
  · rfl
  · split <;> rfl

/-- How a slot is renamed. -/
def renSlot (f : Str → Str) (a b : Slot) : Prop :=
  match a, b with
  | .any, .any => True
  | .val v, .val w => w = f v
  | .var _, .var _ => True
  | _, _ => False

theorem checkValue_cases (x : Str) : (Graph.checkValue x = .any ∧ x = lit "?") ∨ (IsVar x ∧ ∃ v, Graph.checkValue x = .var v) ∨
    (¬ IsVar x ∧ x ≠ lit "?" ∧ Graph.checkValue x = .val x) := by
  unfold Graph.checkValue
  split
  · rename_i h; exact .inl ⟨rfl, by rw [h]; rfl⟩
  · rename_i h
    split
    · rename_i rest
      refine .inr (.inl ⟨?_, rest, rfl⟩)
      cases rest with
      | nil => simp at h
      | cons c cs => exact ⟨c, cs, rfl⟩
    · rename_i h'
      refine .inr (.inr ⟨?_, h, rfl⟩)
      rintro ⟨c, cs, e⟩
      exact h' _ e

theorem checkValue_ren (hf : Renames f) (x : Str) : renSlot f (Graph.checkValue x) (Graph.checkValue (f x)) := by
  have hany : f x = lit "?" ↔ x = lit "?" := ⟨fun h => hf.inj _ _ (h.trans hf.any.symm), fun h => by rw [h]; exact hf.any⟩
  have hnv : ¬ IsVar (lit "?") := by
    rintro ⟨c, cs, e⟩
    exact absurd e (by simp [show lit "?" = ['?'] from rfl])
  rcases checkValue_cases x with ⟨e, h⟩ | ⟨h, v, e⟩ | ⟨h1, h2, e⟩
  · subst h; rw [hf.any, e]; trivial
  · rcases checkValue_cases (f x) with ⟨e', h'⟩ | ⟨h', v', e'⟩ | ⟨h1', h2', e'⟩
    · rw [hany] at h'; subst h'; exact absurd h hnv
    · rw [e, e']; trivial
    · exact absurd ((hf.var x).mpr h) h1'
  · rcases checkValue_cases (f x) with ⟨e', h'⟩ | ⟨h', v', e'⟩ | ⟨h1', h2', e'⟩
    · exact absurd (hany.mp h') h2
    · exact absurd ((hf.var x).mp h') h1
    · rw [e, e']; rfl

theorem slotMatches_ren (hf : Renames f) {a b : Slot} (h : renSlot f a b) (x : Str) : SlotMatches b (f x) ↔ SlotMatches a x := by
  cases a <;> cases b <;> simp only [renSlot] at h
  · rfl
  · subst h
    exact ⟨fun h => hf.inj _ _ h, fun h => congrArg f h⟩
  · rfl

theorem var_ren {a b : Slot} (h : renSlot f a b) : (∃ v, b = .var v) ↔ ∃ v, a = .var v := by
  cases a <;> cases b <;> simp_all [renSlot]

/-- How a query is renamed. -/
def renQuery (f : Str → Str) (p q : Query) : Prop := renSlot f p.fst q.fst ∧ renSlot f p.snd q.snd ∧ renSlot f p.thd q.thd

theorem patternToQuery_ren (hf : Renames f) (e : Entry) : renQuery f (Graph.patternToQuery e) (Graph.patternToQuery (renEntry f e)) := by
  cases e with
  | role a b r => exact ⟨checkValue_ren hf _, checkValue_ren hf _, checkValue_ren hf _⟩
  | ext a b => exact ⟨checkValue_ren hf _, hf.colon.symm, checkValue_ren hf _⟩
  | notExt a b => exact ⟨checkValue_ren hf _, hf.notColon.symm, checkValue_ren hf _⟩

theorem queryMatches_ren (hf : Renames f) {p q : Query} (h : renQuery f p q) (t : Trip) : QueryMatches q (renTrip f t) ↔ QueryMatches p t := by
  simp only [QueryMatches, renTrip, slotMatches_ren hf h.1, slotMatches_ren hf h.2.1, slotMatches_ren hf h.2.2]

theorem reaches_ren (hf : Renames f) {p q : Query} (h : renQuery f p q) (t : Trip) : Mem.Reaches q (renTrip f t) ↔ Mem.Reaches p t := by
  simp only [Mem.Reaches, renTrip, slotMatches_ren hf h.1, slotMatches_ren hf h.2.1,
    var_ren h.1, var_ren h.2.1, var_ren h.2.2]

/-! ## The in-memory store -/

/-- The renamed contents under the renamed names, and no other collections. -/
def MemR (f : Str → Str) (s t : Mem) : Prop :=
  (∀ c, t.colls.get? (f c) = (s.colls.get? c).map (·.map (renTrip f))) ∧ (∀ d, (¬ ∃ c, f c = d) → t.colls.get? d = none)

theorem memR_insert (hi : ∀ x y, f x = f y → x = y) {s t : Mem} (h : MemR f s t) (c : Str) (ts : BSet Trip) :
    MemR f ⟨s.colls.insert c ts⟩ ⟨t.colls.insert (f c) (ts.map (renTrip f))⟩ := by
  constructor
  · intro d
    by_cases e : d = c
    · subst e; simp
    · rw [BMap.get?_insert_ne _ _ (fun e' => e (hi _ _ e')), BMap.get?_insert_ne _ _ e]; exact h.1 d
  · intro d hd
    rw [BMap.get?_insert_ne _ _ (fun e => hd ⟨c, e.symm⟩)]; exact h.2 d hd

theorem memR_erase (hi : ∀ x y, f x = f y → x = y) {s t : Mem} (h : MemR f s t) (c : Str) : MemR f ⟨s.colls.erase c⟩ ⟨t.colls.erase (f c)⟩ := by
  constructor
  · intro d
    by_cases e : d = c
    · subst e; simp
    · rw [BMap.get?_erase_ne _ (fun e' => e (hi _ _ e')), BMap.get?_erase_ne _ e]; exact h.1 d
  · intro d hd
    rw [BMap.get?_erase_ne _ (fun e => hd ⟨c, e.symm⟩)]; exact h.2 d hd

theorem map_empty [SOrd α] [SOrd β] (g : α → β) : (∅ : BSet α).map g = ∅ := BSet.ext fun a => by simp

theorem map_union [SOrd α] [SOrd β] (g : α → β) (a b : BSet α) : (a.union b).map g = (a.map g).union (b.map g) := by
  apply BSet.ext; intro x
  simp only [BSet.mem_map, BSet.mem_union]
  constructor
  · rintro ⟨y, h | h, e⟩
    · exact .inl ⟨y, h, e⟩
    · exact .inr ⟨y, h, e⟩
  · rintro (⟨y, h, e⟩ | ⟨y, h, e⟩)
    · exact ⟨y, .inl h, e⟩
    · exact ⟨y, .inr h, e⟩

theorem map_diff [SOrd α] [SOrd β] {g : α → β} (hg : ∀ a b, g a = g b → a = b) (a b : BSet α) :
    (a.eraseAll b.toList).map g = (a.map g).eraseAll (b.map g).toList := by
  apply BSet.ext; intro x
  simp only [BSet.mem_map, BSet.mem_eraseAll, ← BSet.mem_def]
  constructor
  · rintro ⟨y, ⟨h, h'⟩, e⟩
    refine ⟨⟨y, h, e⟩, ?_⟩
    rintro ⟨z, hz, e'⟩
    rw [hg _ _ (e'.trans e.symm)] at hz
    exact h' hz
  · rintro ⟨⟨y, h, e⟩, h'⟩
    exact ⟨y, ⟨h, fun hy => h' ⟨y, hy, e⟩⟩, e⟩

theorem map_map [SOrd α] [SOrd β] [SOrd γ] (g : α → β) (h : β → γ) (a : BSet α) : (a.map g).map h = a.map (h ∘ g) := by
  apply BSet.ext; intro x
  simp only [BSet.mem_map]
  constructor
  · rintro ⟨y, ⟨z, hz, rfl⟩, e⟩; exact ⟨z, hz, e⟩
  · rintro ⟨z, hz, e⟩; exact ⟨g z, ⟨z, hz, rfl⟩, e⟩

theorem filterLoop_ren (hf : Renames f) {p q : Query} (h : renQuery f p q) (ts : BSet Trip) :
    ResRen (fun r => r.map (renTrip f)) (Mem.filterLoop p ts.toList ∅) (Mem.filterLoop q (ts.map (renTrip f)).toList ∅) := by
  have hr : (∃ t ∈ (ts.map (renTrip f)).toList, Mem.Reaches q t) ↔ ∃ t ∈ ts.toList, Mem.Reaches p t := by
    constructor
    · rintro ⟨t, ht, hq⟩
      obtain ⟨u, hu, rfl⟩ := BSet.mem_map.mp ht
      exact ⟨u, hu, (reaches_ren hf h u).mp hq⟩
    · rintro ⟨t, ht, hq⟩
      exact ⟨renTrip f t, BSet.mem_map.mpr ⟨t, ht, rfl⟩, (reaches_ren hf h t).mpr hq⟩
  by_cases hp : ∃ t ∈ ts.toList, Mem.Reaches p t
  · rw [(Mem.filterLoop_panic p _ _).mpr hp, (Mem.filterLoop_panic q _ _).mpr (hr.mpr hp)]
    trivial
  · obtain ⟨a, ea, ha⟩ := Mem.filterLoop_ok p _ hp ∅
    obtain ⟨b, eb, hb⟩ := Mem.filterLoop_ok q _ (fun hq => hp (hr.mp hq)) ∅
    rw [ea, eb]
    show b = a.map (renTrip f)
    apply BSet.ext; intro x
    rw [hb, BSet.mem_map]
    simp only [BSet.not_mem_empty, false_or, ← BSet.mem_def, BSet.mem_map]
    constructor
    · rintro ⟨⟨y, hy, rfl⟩, hq⟩
      exact ⟨y, (ha y).mpr (.inr ⟨hy, (queryMatches_ren hf h y).mp hq⟩), rfl⟩
    · rintro ⟨y, hy, rfl⟩
      rcases (ha y).mp hy with hy | ⟨hy, hq⟩
      · exact absurd hy (BSet.not_mem_empty y)
      · exact ⟨⟨y, hy, rfl⟩, (queryMatches_ren hf h y).mpr hq⟩

theorem mem_exec (hi : ∀ x y, f x = f y → x = y) {s t : Mem} (h : MemR f s t) (op : Op) :
    (exec Mem.ops t (renOp f op)).1 = (exec Mem.ops s op).1 ∧ MemR f (exec Mem.ops s op).2 (exec Mem.ops t (renOp f op)).2 := by
  cases op with
  | addCollection c =>
    refine ⟨rfl, ?_⟩
    have := memR_insert hi h c ∅
    rw [map_empty] at this
    exact this
  | removeCollection c => exact ⟨rfl, memR_erase hi h c⟩
  | addTriples c ts =>
    have := h.1 c
    simp only [exec, renOp, Mem.ops, Mem.addTriples]
    cases e : s.colls.get? c with
    | none => rw [e] at this; simp only [this, Option.map_none]; exact ⟨trivial, h⟩
    | some r =>
      rw [e] at this; simp only [this, Option.map_some]
      refine ⟨trivial, ?_⟩
      have := memR_insert hi h c (r.union ts)
      rw [map_union] at this
      exact this
  | removeTriples c ts =>
    have := h.1 c
    simp only [exec, renOp, Mem.ops, Mem.removeTriples]
    cases e : s.colls.get? c with
    | none => rw [e] at this; simp only [this, Option.map_none]; exact ⟨trivial, h⟩
    | some r =>
      rw [e] at this; simp only [this, Option.map_some]
      refine ⟨trivial, ?_⟩
      have := memR_insert hi h c (r.eraseAll ts.toList)
      rw [map_diff (fun _ _ => renTrip_inj hi)] at this
      exact this

/-! ## Any store that commutes with the renaming -/

/-- What the evaluator uses of a store, compared on related states. -/
structure LigRen (f : Str → Str) (R : σ → τ → Prop) (L : LigOps σ) (L' : LigOps τ) : Prop where
  entries : ∀ s t c, R s t → ResRen (renNetwork f) (L.entries s c) (L'.entries t (renElement f c))
  filter : ∀ s t c p, R s t → ResRen (renNetwork f) (L.filter s c p) (L'.filter t (renElement f c) (renEntry f p))
  addCollection : ∀ s t c, R s t → ResRen id (L.addCollection s c).1 (L'.addCollection t (renElement f c)).1 ∧
    R (L.addCollection s c).2 (L'.addCollection t (renElement f c)).2
  addEntries : ∀ s t c es, R s t → ResRen id (L.addEntries s c es).1 (L'.addEntries t (renElement f c) (renNetwork f es)).1 ∧
    R (L.addEntries s c es).2.1 (L'.addEntries t (renElement f c) (renNetwork f es)).2.1

theorem resRen_map {g : α → α} {h : β → β} {k l : α → β} (hk : ∀ a, l (g a) = h (k a)) {a b : Res α} (hr : ResRen g a b) :
    ResRen h (a.map k) (b.map l) := by
  cases a <;> cases b <;> simp only [ResRen, Res.map] at hr ⊢
  subst hr; exact hk _

theorem resRen_errTodo {g : α → α} {a b : Res α} (hr : ResRen g a b) : ResRen g a.errTodo b.errTodo := by
  cases a <;> cases b <;> simp only [ResRen, Res.errTodo] at hr ⊢
  exact hr

theorem resRen_eq {a b : Res α} (h : b = a) : ResRen id a b := by
  subst h; cases b <;> simp [ResRen]

theorem net_trip (hf : Renames f) (ts : BSet Trip) : (ts.map (renTrip f)).map Graph.tripToEntry = renNetwork f (ts.map Graph.tripToEntry) := by
  rw [renNetwork, map_map, map_map]
  congr 1; funext t; exact tripToEntry_ren hf t

theorem trip_net (hf : Renames f) (n : Network) : (renNetwork f n).map Graph.entryToTrip = (n.map Graph.entryToTrip).map (renTrip f) := by
  rw [renNetwork, map_map, map_map]
  congr 1; funext t; exact entryToTrip_ren hf t

theorem memLig (hf : Renames f) : LigRen f (MemR f) Graph.memOps Graph.memOps where
  entries s t c h := by
    refine resRen_map (g := fun r => r.map (renTrip f)) (h := renNetwork f) (net_trip hf) ?_
    have := h.1 c.text
    simp only [Mem.ops, Mem.triples, renElement]
    cases e : s.colls.get? c.text with
    | none => rw [e] at this; simp only [this, Option.map_none]; trivial
    | some r => rw [e] at this; simp only [this, Option.map_some]; rfl
  filter s t c p h := by
    refine resRen_errTodo (resRen_map (g := fun r => r.map (renTrip f)) (h := renNetwork f) (net_trip hf) ?_)
    have := h.1 c.text
    simp only [Mem.ops, Mem.filter, renElement]
    cases e : s.colls.get? c.text with
    | none => rw [e] at this; simp only [this, Option.map_none]; trivial
    | some r =>
      rw [e] at this; simp only [this, Option.map_some]
      exact filterLoop_ren hf (patternToQuery_ren hf p) r
  addCollection s t c h := by
    have := mem_exec hf.inj h (.addCollection c.text)
    exact ⟨resRen_errTodo (resRen_eq this.1), this.2⟩
  addEntries s t c es h := by
    have := mem_exec hf.inj h (.addTriples c.text (es.map Graph.entryToTrip))
    simp only [renOp, ← trip_net hf] at this
    exact ⟨resRen_errTodo (resRen_eq this.1), this.2⟩

/-! ## The evaluator -/

section eval
variable {σ : Type u} {τ : Type v} {R : σ → τ → Prop} {L : LigOps σ} {L' : LigOps τ} {cmds : Commands σ} {cmds' : Commands τ}

/-- Renamed outcome and related states. -/
def OutRen (f : Str → Str) (R : σ → τ → Prop) (a : Res Value × σ) (b : Res Value × τ) : Prop :=
  ResRen (renValue f) a.1 b.1 ∧ R a.2 b.2

/-- Both missing, or both the same standard command. -/
def GetRen (a : Option (Command σ)) (b : Option (Command τ)) : Prop :=
  match a, b with
  | some c, some c' => ∃ b, c.fn = .builtin b ∧ c'.fn = .builtin b
  | none, none => True
  | _, _ => False

theorem ren_empty : renValue f emptyNet = emptyNet := by
  simp only [emptyNet, renValue, renNetwork, map_empty]

theorem letStore_ren (hL : LigRen f R L L') (c : Element) (n : Network) (s : σ) (t : τ) (h : R s t) :
    OutRen f R (letStore L c n s) (letStore L' (renElement f c) (renNetwork f n) t) := by
  unfold letStore
  obtain ⟨e1, r1⟩ := hL.addCollection s t c h
  rcases h1 : L.addCollection s c with ⟨a, s1⟩
  rcases h2 : L'.addCollection t (renElement f c) with ⟨b, t1⟩
  rw [h1, h2] at e1 r1
  simp only at e1 r1
  obtain ⟨e2, r2⟩ := hL.addEntries s1 t1 c n r1
  rcases h3 : L.addEntries s1 c n with ⟨x, s2, es⟩
  rcases h4 : L'.addEntries t1 (renElement f c) (renNetwork f n) with ⟨y, t2, es'⟩
  rw [h3, h4] at e2 r2
  simp only at e2 r2
  cases a <;> cases b <;> simp only [ResRen] at e1 <;> simp only [h3, h4]
  · cases x <;> cases y <;> simp only [ResRen] at e2
    · exact ⟨ren_empty.symm, r2⟩
    · exact ⟨ren_empty.symm, r2⟩
    · exact ⟨trivial, r2⟩
  · cases x <;> cases y <;> simp only [ResRen] at e2
    · exact ⟨ren_empty.symm, r2⟩
    · exact ⟨ren_empty.symm, r2⟩
    · exact ⟨trivial, r2⟩
  · exact ⟨trivial, r1⟩

theorem read_ren (hL : LigRen f R L L') (args : List Value) (s : σ) (t : τ) (h : R s t) :
    ResRen (renValue f) (Eval.read L args s) (Eval.read L' (renValues f args) t) := by
  match args with
  | [.element c] =>
    simp only [renValues, renValue, Eval.read]
    have := hL.entries s t c h
    cases e : L.entries s c <;> cases e' : L'.entries t (renElement f c) <;> rw [e, e'] at this <;> simp only [ResRen] at this ⊢
    simp only [renValue, this]
  | [] => simp only [renValues, Eval.read]; trivial
  | [.quote _] => simp only [renValues, renValue, Eval.read]; trivial
  | [.network _] => simp only [renValues, renValue, Eval.read]; trivial
  | _ :: _ :: _ =>
    have : ∀ (L : LigOps τ) (a b : Value) (l : List Value) (t : τ), Eval.read L (a :: b :: l) t = .panic := by
      intro L a b l t
      unfold Eval.read
      split
      · rename_i e; cases e
      · rfl
    simp only [renValues]; rw [this]; simp only [Eval.read]; trivial

theorem filterCmd_ren (hL : LigRen f R L L') (args : List Value) (s : σ) (t : τ) (h : R s t) :
    ResRen (renValue f) (filterCmd L args s) (filterCmd L' (renValues f args) t) := by
  by_cases ha : ∃ c a r b, args = [.element c, .element a, .element r, .element b]
  · obtain ⟨c, a, r, b, rfl⟩ := ha
    simp only [renValues, renValue, filterCmd]
    have := hL.filter s t c (.role a b r) h
    simp only [renEntry] at this
    cases e : L.filter s c (.role a b r) <;>
      cases e' : L'.filter t (renElement f c) (.role (renElement f a) (renElement f b) (renElement f r)) <;>
      rw [e, e'] at this <;> simp only [ResRen] at this ⊢
    simp only [renValue, this]
  · have h1 : filterCmd L args s = .panic := by
      unfold filterCmd
      split
      · exact absurd ⟨_, _, _, _, rfl⟩ ha
      · rfl
    have h2 : filterCmd L' (renValues f args) t = .panic := by
      unfold filterCmd
      split
      · rename_i c a r b e
        exfalso
        apply ha
        match args, e with
        | [.element c, .element a, .element r, .element b], _ => exact ⟨c, a, r, b, rfl⟩
      · rfl
    rw [h1, h2]; trivial

theorem union_ren (args : List Value) : ResRen (renValue f) (Eval.union args) (Eval.union (renValues f args)) := by
  match args with
  | [.network a, .network b] =>
    simp only [renValues, renValue, Eval.union, ResRen, renNetwork, map_union]
  | [] => simp only [renValues, Eval.union]; trivial
  | [_] => simp only [renValues, Eval.union]; trivial
  | [.network _, .element _] => simp only [renValues, renValue, Eval.union]; trivial
  | [.network _, .quote _] => simp only [renValues, renValue, Eval.union]; trivial
  | [.element _, _] => simp only [renValues, renValue, Eval.union]; trivial
  | [.quote _, _] => simp only [renValues, renValue, Eval.union]; trivial
  | _ :: _ :: _ :: _ => simp only [renValues, Eval.union]; trivial

theorem id_ren (args : List Value) : ResRen (renValue f) (idCmd args) (idCmd (renValues f args)) := by
  match args with
  | [v] => simp only [renValues, idCmd, ResRen]
  | [] => simp only [renValues, idCmd]; trivial
  | _ :: _ :: _ => simp only [renValues, idCmd]; trivial

theorem docs_ren (hd : ∀ args, docs cmds args = docs cmds' args) (hn : ∀ n, docs cmds' [] = .ok (.network n) → renNetwork f n = n) (args : List Value) :
    ResRen (renValue f) (docs cmds args) (docs cmds' (renValues f args)) := by
  rw [hd]
  match args with
  | [] =>
    have := hn _ rfl
    simp only [renValues, docs, ResRen, renValue]
    rw [this]
  | _ :: _ => simp only [renValues, docs]; trivial

set_option linter.unusedSectionVars false
variable (hf : Renames f) (hL : LigRen f R L L')
  (hget : ∀ n, GetRen (cmds.get? n) (cmds'.get? (f n)))
  (hdocs : ∀ args, ResRen (renValue f) (docs cmds args) (docs cmds' (renValues f args)))

include hf hL hget hdocs

mutual
theorem evalArg_ren (v : Value) : ∀ s t, R s t → OutRen f R (evalArg L cmds v s) (evalArg L' cmds' (renValue f v) t) := by
  intro s t h
  match v with
  | .quote q => rw [renValue, evalArg, evalArg]; exact runQuote_ren q s t h
  | .element e => simp only [renValue, evalArg]; exact ⟨rfl, h⟩
  | .network n => simp only [renValue, evalArg]; exact ⟨rfl, h⟩

theorem runQuote_ren (q : List Value) : ∀ s t, R s t → OutRen f R (runQuote L cmds q s) (runQuote L' cmds' (renValues f q) t) := by
  intro s t h
  match q with
  | [] => simp only [renValues, runQuote]; exact ⟨ren_empty.symm, h⟩
  | .element name :: args =>
    simp only [renValues, renValue, runQuote]
    have hg := hget name.text
    cases h1 : cmds.get? name.text with
    | none =>
      cases h2 : cmds'.get? (f name.text) with
      | none => simp only [renElement, h2]; exact ⟨trivial, h⟩
      | some c => simp [GetRen, h1, h2] at hg
    | some c =>
      cases h2 : cmds'.get? (f name.text) with
      | none => simp [GetRen, h1, h2] at hg
      | some c' =>
        simp only [GetRen, h1, h2] at hg
        obtain ⟨b, e, e'⟩ := hg
        simp only [renElement, h2, e, e']
        exact runFun_ren args b s t h
  | .quote _ :: _ => simp only [renValues, renValue, runQuote]; exact ⟨trivial, h⟩
  | .network _ :: _ => simp only [renValues, renValue, runQuote]; exact ⟨trivial, h⟩

theorem runFun_ren (args : List Value) : ∀ b s t, R s t →
    OutRen f R (runFun L cmds (.builtin b) args s) (runFun L' cmds' (.builtin b) (renValues f args) t) := by
  intro b s t h
  match b with
  | .docs => simp only [runFun]; exact ⟨hdocs args, h⟩
  | .union => simp only [runFun]; exact ⟨union_ren args, h⟩
  | .id => simp only [runFun]; exact ⟨id_ren args, h⟩
  | .ignore => simp only [runFun]; exact ⟨ren_empty.symm, h⟩
  | .read => simp only [runFun]; exact ⟨read_ren hL args s t h, h⟩
  | .filter => simp only [runFun]; exact ⟨filterCmd_ren hL args s t h, h⟩
  | .assertEqual =>
    match args with
    | [left, right] =>
      simp only [renValues, runFun]
      obtain ⟨e1, r1⟩ := evalArg_ren left s t h
      rcases h1 : evalArg L cmds left s with ⟨a, s1⟩
      rcases h2 : evalArg L' cmds' (renValue f left) t with ⟨b, t1⟩
      rw [h1, h2] at e1 r1
      simp only at e1 r1
      cases a <;> cases b <;> simp only [ResRen] at e1
      · subst e1
        rename_i l
        obtain ⟨e2, r2⟩ := evalArg_ren right s1 t1 r1
        rcases h3 : evalArg L cmds right s1 with ⟨c, s2⟩
        rcases h4 : evalArg L' cmds' (renValue f right) t1 with ⟨d, t2⟩
        rw [h3, h4] at e2 r2
        simp only at e2 r2
        simp only [h3, h4]
        cases c <;> cases d <;> simp only [ResRen] at e2
        · subst e2
          rename_i r
          refine ⟨?_, r2⟩
          simp only [assertEqualResult]
          by_cases hlr : l = r
          · subst hlr; simp only [if_true]; exact ren_empty.symm
          · rw [if_neg hlr, if_neg (fun e => hlr (renValue_inj hf _ _ e))]; trivial
        · exact ⟨trivial, r2⟩
        · exact ⟨trivial, r2⟩
      · exact ⟨trivial, r1⟩
      · exact ⟨trivial, r1⟩
    | [] => simp only [renValues, runFun]; exact ⟨trivial, h⟩
    | [_] => simp only [renValues, runFun]; exact ⟨trivial, h⟩
    | _ :: _ :: _ :: _ => simp only [renValues, runFun]; exact ⟨trivial, h⟩
  | .assertFail =>
    match args with
    | [.quote q] =>
      have := evalArg_ren (.quote q) s t h
      simp only [renValues, renValue, runFun] at this ⊢
      obtain ⟨e1, r1⟩ := this
      rcases h1 : evalArg L cmds (.quote q) s with ⟨a, s1⟩
      rcases h2 : evalArg L' cmds' (.quote (renValues f q)) t with ⟨b, t1⟩
      rw [h1, h2] at e1 r1
      simp only at e1 r1
      cases a <;> cases b <;> simp only [ResRen] at e1
      · exact ⟨trivial, r1⟩
      · exact ⟨ren_empty.symm, r1⟩
      · exact ⟨trivial, r1⟩
    | [.element _] => simp only [renValues, renValue, runFun]; exact ⟨trivial, h⟩
    | [.network _] => simp only [renValues, renValue, runFun]; exact ⟨trivial, h⟩
    | [] => simp only [renValues, runFun]; exact ⟨trivial, h⟩
    | _ :: _ :: _ => simp only [renValues, runFun]; exact ⟨trivial, h⟩
  | .let_ =>
    match args with
    | [.element name, .network n] => simp only [renValues, renValue, runFun]; exact letStore_ren hL name n s t h
    | [.element name, .quote q] =>
      have := evalArg_ren (.quote q) s t h
      simp only [renValues, renValue, runFun] at this ⊢
      obtain ⟨e1, r1⟩ := this
      rcases h1 : evalArg L cmds (.quote q) s with ⟨a, s1⟩
      rcases h2 : evalArg L' cmds' (.quote (renValues f q)) t with ⟨b, t1⟩
      rw [h1, h2] at e1 r1
      simp only at e1 r1
      cases a <;> cases b <;> simp only [ResRen] at e1
      · subst e1
        rename_i v
        cases v with
        | network n => simp only [renValue]; exact letStore_ren hL name n s1 t1 r1
        | element e => simp only [renValue]; exact ⟨trivial, r1⟩
        | quote q => simp only [renValue]; exact ⟨trivial, r1⟩
      · exact ⟨trivial, r1⟩
      · exact ⟨trivial, r1⟩
    | [.element _, .element _] => simp only [renValues, renValue, runFun]; exact ⟨trivial, h⟩
    | [.quote _, _] => simp only [renValues, renValue, runFun]; exact ⟨trivial, h⟩
    | [.network _, _] => simp only [renValues, renValue, runFun]; exact ⟨trivial, h⟩
    | [] => simp only [renValues, runFun]; exact ⟨trivial, h⟩
    | [_] => simp only [renValues, runFun]; exact ⟨trivial, h⟩
    | _ :: _ :: _ :: _ => simp only [renValues, runFun]; exact ⟨trivial, h⟩
end

theorem runCallsLoop_ren (calls : List Call) : ∀ (v : Value) s t, R s t →
    OutRen f R (runCallsLoop L cmds calls v s) (runCallsLoop L' cmds' (calls.map (renCall f)) (renValue f v) t) := by
  induction calls with
  | nil => intro v s t h; exact ⟨rfl, h⟩
  | cons c cs ih =>
    intro v s t h
    simp only [List.map_cons, runCallsLoop]
    have hc : OutRen f R (runCall L cmds c s) (runCall L' cmds' (renCall f c) t) := by
      have := runQuote_ren hf hL hget hdocs (.element c.name :: c.args) s t h
      simpa only [renValues, renValue, runQuote, runCall, renCall] using this
    obtain ⟨e1, r1⟩ := hc
    rcases h1 : runCall L cmds c s with ⟨a, s1⟩
    rcases h2 : runCall L' cmds' (renCall f c) t with ⟨b, t1⟩
    rw [h1, h2] at e1 r1
    simp only at e1 r1
    cases a <;> cases b <;> simp only [ResRen] at e1
    · subst e1; exact ih _ s1 t1 r1
    · exact ⟨trivial, r1⟩
    · exact ⟨trivial, r1⟩

end eval

theorem common_get (hf : RenamesFor (common (σ := σ)) f) (n : Str) :
    GetRen ((common (σ := σ)).get? n) ((common (σ := σ)).get? (f n)) := by
  by_cases hn : ∃ p ∈ common (σ := σ), p.1 = n
  · obtain ⟨p, hp, rfl⟩ := hn
    rw [hf.name p hp]
    simp only [common, List.mem_cons, List.not_mem_nil, or_false] at hp
    rcases hp with rfl | rfl | rfl | rfl | rfl | rfl | rfl | rfl | rfl <;> exact ⟨_, rfl, rfl⟩
  · have hnone : ∀ m, (¬ ∃ p ∈ common (σ := σ), p.1 = m) → (common (σ := σ)).get? m = none := by
      intro m hm
      rw [Commands.get?, List.lookup_eq_none_iff]
      intro p hp
      simp only [bne_iff_ne, ne_eq]
      intro e
      exact hm ⟨p, hp, e.symm⟩
    rw [hnone n hn, hnone (f n)]
    · trivial
    · rintro ⟨p, hp, e⟩
      rw [← hf.name p hp] at e
      exact hn ⟨p, hp, hf.inj _ _ e⟩

theorem docs_mem (cmds : Commands σ) (l : Network) (x : Entry) :
    x ∈ cmds.foldl (fun results p => results.insert (.role (.of p.1) (.of p.2.doc) (.of (lit "docString")))) l ↔
      x ∈ l ∨ ∃ p ∈ cmds, x = .role (.of p.1) (.of p.2.doc) (.of (lit "docString")) := by
  induction cmds generalizing l with
  | nil => simp
  | cons p ps ih =>
    rw [List.foldl_cons, ih]
    simp only [BSet.mem_insert, List.mem_cons]
    constructor
    · rintro ((h | h) | ⟨q, hq, h⟩)
      · exact .inr ⟨p, .inl rfl, h⟩
      · exact .inl h
      · exact .inr ⟨q, .inr hq, h⟩
    · rintro (h | ⟨q, rfl | hq, h⟩)
      · exact .inl (.inr h)
      · exact .inl (.inl h)
      · exact .inr ⟨q, hq, h⟩

theorem common_docs (hf : RenamesFor (common (σ := σ)) f) (args : List Value) :
    ResRen (renValue f) (docs (common (σ := σ)) args) (docs (common (σ := σ)) (renValues f args)) := by
  refine docs_ren (fun _ => rfl) ?_ args
  intro n hn
  simp only [docs, Res.ok.injEq, Value.network.injEq] at hn
  apply BSet.ext; intro x
  rw [renNetwork, BSet.mem_map, ← hn, docs_mem]
  have hfix : ∀ p ∈ common (σ := σ), renEntry f (.role (.of p.1) (.of p.2.doc) (.of (lit "docString"))) =
      .role (.of p.1) (.of p.2.doc) (.of (lit "docString")) := by
    intro p hp
    simp only [renEntry, renElement, hf.name p hp, hf.doc p hp, hf.docString]
  simp only [docs_mem, BSet.not_mem_empty, false_or]
  constructor
  · rintro ⟨y, ⟨p, hp, rfl⟩, rfl⟩
    exact ⟨p, hp, hfix p hp⟩
  · rintro ⟨p, hp, rfl⟩
    exact ⟨_, ⟨p, hp, rfl⟩, hfix p hp⟩

theorem memR_iff (s t : Mem) (hi : ∀ x y, f x = f y → x = y) : MemR f s t ↔ RenamedView f Mem.ops s t := by
  have hl : ∀ (s : Mem) c, Listed Mem.ops s c ↔ (s.colls.get? c).isSome := by
    intro s c
    rw [← BMap.mem_keys_isSome]
    exact ⟨fun ⟨l, h, h'⟩ => by cases h; exact h', fun h => ⟨_, rfl, h⟩⟩
  constructor
  · intro h
    constructor
    · intro d
      rw [hl]
      constructor
      · intro hd
        by_cases e : ∃ c, f c = d
        · obtain ⟨c, rfl⟩ := e
          refine ⟨c, ?_, rfl⟩
          rw [h.1] at hd
          rw [hl]
          simpa using hd
        · rw [h.2 d e] at hd; cases hd
      · rintro ⟨c, hc, rfl⟩
        rw [hl] at hc
        rw [h.1]
        simpa using hc
    · intro c ts _ h2
      simp only [Mem.ops, Mem.triples] at h2 ⊢
      rw [h.1]
      cases e : s.colls.get? c with
      | none => simp [e] at h2
      | some r =>
        simp only [e, Res.ok.injEq] at h2
        subst h2
        exact ⟨_, rfl, fun u => BSet.mem_map⟩
  · rintro ⟨h1, h2⟩
    constructor
    · intro c
      cases e : s.colls.get? c with
      | none =>
        cases e' : t.colls.get? (f c) with
        | none => rfl
        | some r =>
          obtain ⟨d, hd, he⟩ := (h1 (f c)).mp ((hl _ _).mpr (by simp [e']))
          rw [hi _ _ he, hl, e] at hd
          cases hd
      | some r =>
        obtain ⟨us, hu, hm⟩ := h2 c r ((hl _ _).mpr (by simp [e])) (by simp [Mem.ops, Mem.triples, e])
        simp only [Mem.ops, Mem.triples] at hu
        cases e' : t.colls.get? (f c) with
        | none => simp [e'] at hu
        | some us' =>
          simp only [e', Res.ok.injEq] at hu
          subst hu
          simp only [Option.map_some, Option.some.injEq]
          apply BSet.ext; intro u
          rw [hm, BSet.mem_map]
    · intro d hd
      cases e : t.colls.get? d with
      | none => rfl
      | some r =>
        obtain ⟨c, _, hc⟩ := (h1 d).mp ((hl _ _).mpr (by simp [e]))
        exact absurd ⟨c, hc⟩ hd

end Ren
end Verif

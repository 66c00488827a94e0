import Verif.Spec.Js
import Verif.Props.Apps
import Verif.Props.Ordering
/-!
# C77: what a web page gets from `run`
-/
namespace Verif
namespace Props
open Spec
open Wasm (JsVal)

/-! ## Strings -/

theorem spells_jsString (s : Str) : Spells (Wasm.jsString s) s := by
  induction s with
  | nil => exact .nil
  | cons c s ih =>
    show Spells (Wasm.units c ++ Wasm.jsString s) (c :: s)
    rw [Wasm.units]
    by_cases h : c.toNat < 0x10000
    · rw [if_pos h]; exact .one h ih
    · rw [if_neg h]
      have hc : c.toNat < 0x110000 := by
        rcases c.valid with h | ⟨_, h⟩
        · exact Nat.lt_trans h (by decide)
        · exact h
      exact .pair (h := (c.toNat - 0x10000) / 0x400) (l := (c.toNat - 0x10000) % 0x400) (by omega) (by omega) (by omega) ih

theorem not_surrogate (c : Char) : ¬ (0xD800 ≤ c.toNat ∧ c.toNat < 0xE000) := by
  rcases c.valid with h | ⟨h, _⟩
  · intro h'; have : c.toNat < 0xD800 := h; omega
  · intro h'; have : 0xDFFF < c.toNat := h; omega

theorem spells_inj {us : List Nat} {s t : Str} (h : Spells us s) (h' : Spells us t) : s = t := by
  induction h generalizing t with
  | nil => cases h'; rfl
  | @one c us s hc h ih =>
    generalize hw : c.toNat :: us = w at h'
    cases h' with
    | nil => cases hw
    | @one d us' t' hd h' =>
      obtain ⟨e1, rfl⟩ := List.cons.inj hw
      rw [Char.toNat_inj.mp e1, ih h']
    | pair hd hh hl h' =>
      obtain ⟨e1, _⟩ := List.cons.inj hw
      exact absurd ⟨by omega, by omega⟩ (not_surrogate c)
  | @pair c hi lo us s hc hh hl h ih =>
    generalize hw : (0xD800 + hi) :: (0xDC00 + lo) :: us = w at h'
    cases h' with
    | nil => cases hw
    | @one d us' t' hd h' =>
      obtain ⟨e1, _⟩ := List.cons.inj hw
      exact absurd ⟨by omega, by omega⟩ (not_surrogate d)
    | @pair d hi' lo' us' t' hd hh' hl' h' =>
      obtain ⟨e1, e2⟩ := List.cons.inj hw
      obtain ⟨e2, rfl⟩ := List.cons.inj e2
      have : c.toNat = d.toNat := by omega
      rw [Char.toNat_inj.mp this, ih h']

theorem spells_fun {us vs : List Nat} {s : Str} (h : Spells us s) (h' : Spells vs s) : us = vs := by
  induction h generalizing vs with
  | nil => cases h'; rfl
  | @one c us s hc h ih =>
    cases h' with
    | one hd h' => rw [ih h']
    | pair hd hh hl h' => omega
  | @pair c hi lo us s hc hh hl h ih =>
    cases h' with
    | one hd h' => omega
    | @pair d hi' lo' us' t' hd hh' hl' h' =>
      have e1 : hi = hi' := by omega
      have e2 : lo = lo' := by omega
      rw [e1, e2, ih h']

theorem jsString_inj {s t : Str} (h : Wasm.jsString s = Wasm.jsString t) : s = t :=
  spells_inj (spells_jsString s) (h ▸ spells_jsString t)

theorem isText_jsString (s : Str) : IsText (.str (Wasm.jsString s)) s := ⟨_, rfl, spells_jsString s⟩

theorem isText_inj {v : JsVal} {s t : Str} (h : IsText v s) (h' : IsText v t) : s = t := by
  obtain ⟨us, rfl, h⟩ := h
  obtain ⟨vs, e, h'⟩ := h'
  cases e
  exact spells_inj h h'

/-! ## Drawings -/

theorem each_map {α : Type u} {β : Type v} {r : α → β → Prop} {l : List β} {f : β → α} (h : ∀ b, r (f b) b) : Each r (l.map f) l := by
  induction l with
  | nil => exact .nil
  | cons b l ih => exact .cons (h b) ih

theorem each_inj {α : Type u} {β : Type v} {r : α → β → Prop} (hr : ∀ a b b', r a b → r a b' → b = b') {l : List α} {m m' : List β}
    (h : Each r l m) (h' : Each r l m') : m = m' := by
  induction h generalizing m' with
  | nil => cases h'; rfl
  | cons h1 _ ih => cases h' with
    | cons h2 h3 => rw [hr _ _ _ h1 h2, ih h3]

theorem isEdge_inj {v : JsVal} {a b : Str × Str × Str} (h : IsEdge v a) (h' : IsEdge v b) : a = b := by
  obtain ⟨k, s, t, rfl, h1, h2, h3⟩ := h
  obtain ⟨k', s', t', e, h1', h2', h3'⟩ := h'
  simp only [JsVal.obj.injEq, List.cons.injEq, Prod.mk.injEq, true_and, and_true] at e
  obtain ⟨rfl, rfl, rfl⟩ := e
  exact Prod.ext (isText_inj h1 h1') (Prod.ext (isText_inj h2 h2') (isText_inj h3 h3'))

theorem prod_lt_iff {α : Type u} {β : Type v} [SOrd α] [SOrd β] {x y : α × β} :
    SOrd.lt x y = true ↔ SOrd.lt x.1 y.1 = true ∨ (x.1 = y.1 ∧ SOrd.lt x.2 y.2 = true) := by
  show SOrd.prodLt x y = true ↔ _
  simp only [SOrd.prodLt, Bool.or_eq_true, Bool.and_eq_true, Bool.not_eq_true']
  constructor
  · rintro (h | ⟨h1, h2⟩)
    · exact .inl h
    · cases h : SOrd.lt x.1 y.1 with
      | true => exact .inl rfl
      | false => exact .inr ⟨SOrd.tri h h1, h2⟩
  · rintro (h | ⟨h1, h2⟩)
    · exact .inl h
    · exact .inr ⟨by rw [h1]; exact SOrd.irrefl _, h2⟩

theorem edge_lt_iff {a b : Wasm.Edge} : SOrd.lt a b = true ↔ EdgeLt (a.key, a.source, a.target) (b.key, b.source, b.target) := by
  show SOrd.lt (a.key, a.source, a.target) (b.key, b.source, b.target) = true ↔ _
  rw [prod_lt_iff, prod_lt_iff]
  simp only [EdgeLt, textLt_iff]

theorem graphJs_draws (n : Network) : Draws (Wasm.graphJs (Wasm.graphToGraphology n)) n := by
  obtain ⟨h1, h2⟩ := export_mem n
  refine ⟨_, _, (Wasm.graphToGraphology n).nodes.toList, (Wasm.graphToGraphology n).edges.toList.map (fun e => (e.key, e.source, e.target)),
    rfl, each_map (fun x => ⟨_, rfl, isText_jsString x⟩), ?_, ?_, ?_, h1, ?_⟩
  · generalize (Wasm.graphToGraphology n).edges.toList = l
    induction l with
    | nil => exact .nil
    | cons e l ih => exact .cons ⟨_, _, _, rfl, isText_jsString _, isText_jsString _, isText_jsString _⟩ ih
  · exact (Wasm.graphToGraphology n).nodes.sorted.imp textLt_iff.mp
  · rw [List.pairwise_map]
    exact (Wasm.graphToGraphology n).edges.sorted.imp edge_lt_iff.mp
  · intro k s t
    rw [List.mem_map]
    constructor
    · rintro ⟨E, hE, he⟩
      obtain ⟨e, he', rfl⟩ := (h2 E).mp hE
      refine ⟨e, he', ?_⟩
      simp only [edgeOf, Prod.mk.injEq] at he
      obtain ⟨rfl, rfl, rfl⟩ := he
      rfl
    · rintro ⟨e, he, hp⟩
      refine ⟨edgeOf e, (h2 _).mpr ⟨e, he, rfl⟩, ?_⟩
      simp only [edgeOf, hp]

theorem parts_inj {e f : Entry} (he : ParserForm e) (hf : ParserForm f) (h : parts e = parts f) : e = f :=
  edgeOf_inj he hf (by simp only [edgeOf, h])

theorem draws_inj {v : JsVal} {n m : Network} (hn : ∀ e ∈ n, ParserForm e) (hm : ∀ e ∈ m, ParserForm e) (h : Draws v n) (h' : Draws v m) : n = m := by
  obtain ⟨ns, es, nodes, edges, rfl, _, h2, _, _, _, h3⟩ := h
  obtain ⟨ns', es', nodes', edges', e, _, h2', _, _, _, h3'⟩ := h'
  simp only [JsVal.obj.injEq, List.cons.injEq, Prod.mk.injEq, true_and, and_true, JsVal.arr.injEq] at e
  obtain ⟨rfl, rfl⟩ := e
  have hE : edges = edges' := each_inj (r := IsEdge) (fun _ _ _ h h' => isEdge_inj h h') h2 h2'
  subst hE
  apply BSet.ext
  intro e
  constructor
  · intro he
    obtain ⟨f, hf, hp⟩ := (h3' _ _ _).mp ((h3 _ _ _).mpr ⟨e, he, rfl⟩)
    rw [parts_inj (hn e he) (hm f hf) hp.symm]; exact hf
  · intro he
    obtain ⟨f, hf, hp⟩ := (h3 _ _ _).mp ((h3' _ _ _).mpr ⟨e, he, rfl⟩)
    rw [parts_inj (hm e he) (hn f hf) hp.symm]; exact hf

/-! ## The map -/

theorem mapGet_set (k x : List Nat) (v : JsVal) (l : List (List Nat × JsVal)) :
    mapGet x (Wasm.mapSet k v l) = if x = k then some v else mapGet x l := by
  induction l with
  | nil => rfl
  | cons kv l ih =>
    obtain ⟨k', v'⟩ := kv
    rw [Wasm.mapSet]
    by_cases h : k = k'
    · subst h
      rw [if_pos rfl]
      simp only [mapGet]
      split <;> rfl
    · rw [if_neg h]
      simp only [mapGet, ih]
      by_cases h1 : x = k'
      · subst h1; rw [if_pos rfl, if_pos rfl, if_neg (fun e => h e.symm)]
      · rw [if_neg h1, if_neg h1]

theorem keys_set (k : List Nat) (v : JsVal) (l : List (List Nat × JsVal)) :
    (Wasm.mapSet k v l).map Prod.fst = if k ∈ l.map Prod.fst then l.map Prod.fst else l.map Prod.fst ++ [k] := by
  induction l with
  | nil => rfl
  | cons kv l ih =>
    obtain ⟨k', v'⟩ := kv
    rw [Wasm.mapSet]
    by_cases h : k = k'
    · subst h; simp
    · rw [if_neg h, List.map_cons, ih]
      by_cases h1 : k ∈ l.map Prod.fst
      · rw [if_pos h1, if_pos (show k ∈ ((k', v') :: l).map Prod.fst from List.mem_cons_of_mem _ h1)]; rfl
      · rw [if_neg h1, if_neg (by simp only [List.map_cons, List.mem_cons, not_or]; exact ⟨h, h1⟩)]; rfl

/-- Looking up in the exported map, for an order in which no name is repeated. -/
theorem exportJs_get (order : List (Str × Wasm.Graphology)) (hnd : (order.map Prod.fst).Nodup) :
    ∃ es, Wasm.exportJs order = .map es ∧ (es.map Prod.fst) = order.map (fun kv => Wasm.jsString kv.1) ∧
      (∀ k g, (k, g) ∈ order → mapGet (Wasm.jsString k) es = some (Wasm.graphJs g)) ∧
      (∀ us, (∀ k g, (k, g) ∈ order → Wasm.jsString k ≠ us) → mapGet us es = none) := by
  have key : ∀ (l : List (Str × Wasm.Graphology)) (m : List (List Nat × JsVal)), (l.map Prod.fst).Nodup →
      (∀ kv ∈ l, Wasm.jsString kv.1 ∉ m.map Prod.fst) →
      let es := l.foldl (fun m kv => Wasm.mapSet (Wasm.jsString kv.1) (Wasm.graphJs kv.2) m) m
      (es.map Prod.fst) = m.map Prod.fst ++ l.map (fun kv => Wasm.jsString kv.1) ∧
      (∀ k g, (k, g) ∈ l → mapGet (Wasm.jsString k) es = some (Wasm.graphJs g)) ∧
      (∀ us, (∀ k g, (k, g) ∈ l → Wasm.jsString k ≠ us) → mapGet us es = mapGet us m) := by
    intro l
    induction l with
    | nil => intro m _ _; simp
    | cons a l ih =>
      obtain ⟨k, g⟩ := a
      intro m hnd hm
      simp only [List.map_cons, List.nodup_cons] at hnd
      have hkm : Wasm.jsString k ∉ m.map Prod.fst := hm _ List.mem_cons_self
      have hks : ((Wasm.mapSet (Wasm.jsString k) (Wasm.graphJs g) m).map Prod.fst) = m.map Prod.fst ++ [Wasm.jsString k] := by
        rw [keys_set, if_neg hkm]
      obtain ⟨h1, h2, h3⟩ := ih (Wasm.mapSet (Wasm.jsString k) (Wasm.graphJs g) m) hnd.2 (by
        intro kv hkv
        rw [hks, List.mem_append, List.mem_singleton, not_or]
        refine ⟨hm _ (List.mem_cons_of_mem _ hkv), fun e => hnd.1 ?_⟩
        rw [← jsString_inj e]
        exact List.mem_map.mpr ⟨kv, hkv, rfl⟩)
      refine ⟨?_, ?_, ?_⟩
      · simp only [List.foldl_cons]
        rw [h1, hks, List.append_assoc]; rfl
      · intro k' g' hin
        simp only [List.foldl_cons]
        rcases List.mem_cons.mp hin with e | hin'
        · obtain ⟨rfl, rfl⟩ := Prod.mk.inj e
          rw [h3, mapGet_set, if_pos rfl]
          intro k2 g2 hin2 e2
          exact hnd.1 (by rw [← jsString_inj e2]; exact List.mem_map.mpr ⟨_, hin2, rfl⟩)
        · exact h2 k' g' hin'
      · intro us hus
        simp only [List.foldl_cons]
        rw [h3 us (fun k' g' hin => hus k' g' (List.mem_cons_of_mem _ hin)), mapGet_set,
          if_neg (fun e => hus k g List.mem_cons_self e.symm)]
  obtain ⟨h1, h2, h3⟩ := key order [] hnd (by simp)
  exact ⟨_, rfl, by rw [h1]; rfl, h2, fun us h => by rw [h3 us h]; rfl⟩

/-! ## C77 -/

/-- C77: the value handed to the page by a script, whatever the iteration order of the hash map. If the script fails it is the string that
spells the message.  If it succeeds it is a `Map` whose keys spell exactly the names of the collections, each once, and in which looking up
a name gives the drawing of exactly that collection's entries.  If the script panics there is none. -/
theorem C77_value (iter : BMap Str Wasm.Graphology → List (Str × Wasm.Graphology)) (hi : ∀ m, (iter m).Perm m.toList) (script : Str) :
    match runGraph script Graph.memNew with
    | (.err msg, _) => ∃ v, Wasm.runJs iter script = some v ∧ IsText v msg
    | (.panic, _) => Wasm.runJs iter script = none
    | (.ok _, s) => ∃ es, Wasm.runJs iter script = some (.map es) ∧ (es.map Prod.fst).Nodup ∧
        (∀ c us, Spells us c → ∀ n, Graph.memOps.entries s (.of c) = .ok n → ∃ v, mapGet us es = some v ∧ Draws v n) ∧
        (∀ us, (∀ c, Spells us c → ∀ n, Graph.memOps.entries s (.of c) ≠ .ok n) → mapGet us es = none) := by
  obtain ⟨hok, herr, hpan⟩ := C50_run script
  cases hr : runGraph script Graph.memNew with
  | mk r s =>
    rw [hr] at herr hpan
    cases r with
    | err msg =>
      refine ⟨_, ?_, isText_jsString msg⟩
      rw [Wasm.runJs, (herr msg).mpr rfl]
    | panic =>
      show Wasm.runJs iter script = none
      rw [Wasm.runJs, hpan.mpr rfl]
    | ok v =>
      obtain ⟨m, hm, hg⟩ := hok v s hr
      have hp := hi m
      have hnd : ((iter m).map Prod.fst).Nodup := (hp.map Prod.fst).nodup_iff.mpr m.keys_nodup
      obtain ⟨es, h1, h2, h3, h4⟩ := exportJs_get (iter m) hnd
      have hmem : ∀ c g, (c, g) ∈ iter m ↔ m.get? c = some g := fun c g => hp.mem_iff.trans BMap.mem_toList_iff
      refine ⟨es, ?_, ?_, ?_, ?_⟩
      · rw [Wasm.runJs, hm]; exact congrArg some h1
      · rw [h2]
        have : (iter m).map (fun kv => Wasm.jsString kv.1) = ((iter m).map Prod.fst).map Wasm.jsString := by rw [List.map_map]; rfl
        rw [this]
        rw [List.nodup_iff_pairwise_ne, List.pairwise_map]
        exact (List.nodup_iff_pairwise_ne.mp hnd).imp (fun h e => h (jsString_inj e))
      · intro c us hus n hn
        have hc := hg c
        rw [hn] at hc
        rw [spells_fun hus (spells_jsString c)]
        exact ⟨_, h3 c _ ((hmem c _).mpr hc), graphJs_draws n⟩
      · intro us hus
        refine h4 us (fun k g hin e => ?_)
        have hk := (hmem k g).mp hin
        have hc := hg k
        rw [hk] at hc
        cases hn : Graph.memOps.entries s (.of k) with
        | ok n => exact hus k (e ▸ spells_jsString k) n hn
        | err _ => rw [hn] at hc; cases hc
        | panic => rw [hn] at hc; cases hc

/-- A failing script and a succeeding one with two collections, a character outside the basic plane and the other iteration order. -/
example : (runGraph (lit "let x {𝕩 : b}, let y {}") Graph.memNew).1 = .ok (.network ∅) ∧
    Wasm.jsString (lit "𝕩") = [0xD835, 0xDD69] ∧
    ((Wasm.run (lit "let x {𝕩 : b}, let y {}")).map fun m => m.toList.reverse.map fun kv => (kv.1, kv.2.nodes.toList)) =
      .ok [(lit "y", []), (lit "x", [lit "b", lit "𝕩"])] ∧
    (∀ m : BMap Str Wasm.Graphology, m.toList.reverse.Perm m.toList) ∧
    (runGraph (lit "nope") Graph.memNew).1.isOk = false := by
  refine ⟨by decide +kernel, by decide +kernel, by decide +kernel, fun m => List.reverse_perm _, by decide +kernel⟩

/-- C77: the iteration order of the hash map shows only in the order in which the `Map` lists its keys. -/
theorem C77_order (iter iter' : BMap Str Wasm.Graphology → List (Str × Wasm.Graphology)) (hi : ∀ m, (iter m).Perm m.toList)
    (hi' : ∀ m, (iter' m).Perm m.toList) (script : Str) :
    match Wasm.runJs iter script, Wasm.runJs iter' script with
    | none, none => True
    | some v, some v' => SameToPage v v'
    | _, _ => False := by
  simp only [Wasm.runJs]
  cases Wasm.run script with
  | panic => trivial
  | err m => rfl
  | ok m =>
    obtain ⟨es, h1, _, h3, h4⟩ := exportJs_get (iter m) (((hi m).map Prod.fst).nodup_iff.mpr m.keys_nodup)
    obtain ⟨es', h1', _, h3', h4'⟩ := exportJs_get (iter' m) (((hi' m).map Prod.fst).nodup_iff.mpr m.keys_nodup)
    simp only [h1, h1', SameToPage]
    intro us
    by_cases h : ∃ k g, (k, g) ∈ iter m ∧ Wasm.jsString k = us
    · obtain ⟨k, g, hin, rfl⟩ := h
      rw [h3 k g hin, h3' k g ((hi' m).mem_iff.mpr ((hi m).mem_iff.mp hin))]
    · rw [h4 us (fun k g hin e => h ⟨k, g, hin, e⟩), h4' us (fun k g hin e => h ⟨k, g, (hi m).mem_iff.mpr ((hi' m).mem_iff.mp hin), e⟩)]

/-- C77: the page can tell outcomes apart: two scripts whose values are the same to the page both failed, with the same message, or both
succeeded and left the same collections with the same entries. -/
theorem C77_tells_apart (iter iter' : BMap Str Wasm.Graphology → List (Str × Wasm.Graphology)) (hi : ∀ m, (iter m).Perm m.toList)
    (hi' : ∀ m, (iter' m).Perm m.toList) (script script' : Str) (v v' : JsVal) (h : Wasm.runJs iter script = some v)
    (h' : Wasm.runJs iter' script' = some v') (hs : SameToPage v v') :
    (∃ msg, (runGraph script Graph.memNew).1 = .err msg ∧ (runGraph script' Graph.memNew).1 = .err msg) ∨
    ((runGraph script Graph.memNew).1.isOk ∧ (runGraph script' Graph.memNew).1.isOk ∧
      ∀ c n, Graph.memOps.entries (runGraph script Graph.memNew).2 (.of c) = .ok n ↔
        Graph.memOps.entries (runGraph script' Graph.memNew).2 (.of c) = .ok n) := by
  have pf : ∀ (s : Mem) (c : Str) (n : Network), Graph.memOps.entries s (.of c) = .ok n → ∀ e ∈ n, ParserForm e := by
    intro s c n hn e he
    simp only [Graph.memOps, Graph.ops, Graph.entries] at hn
    cases ht : Mem.ops.triples s c with
    | ok ts =>
      rw [ht] at hn
      have hn' := Res.ok.inj hn
      rw [← hn', BSet.mem_map] at he
      obtain ⟨x, _, rfl⟩ := he
      exact Graph.parserForm_trip x
    | err m => rw [ht] at hn; cases hn
    | panic => rw [ht] at hn; cases hn
  have one := C77_value iter hi script
  have two := C77_value iter' hi' script'
  cases hr : runGraph script Graph.memNew with
  | mk r s =>
  cases hr' : runGraph script' Graph.memNew with
  | mk r' s' =>
  rw [hr] at one
  rw [hr'] at two
  cases r with
  | panic => rw [show Wasm.runJs iter script = none from one] at h; cases h
  | err msg =>
    obtain ⟨w, hw, ht⟩ := one
    cases hw.symm.trans h
    obtain ⟨us, rfl, hsp⟩ := ht
    cases r' with
    | panic => rw [show Wasm.runJs iter' script' = none from two] at h'; cases h'
    | err msg' =>
      obtain ⟨w, hw, ht⟩ := two
      cases hw.symm.trans h'
      obtain ⟨us', rfl, hsp'⟩ := ht
      have : us = us' := by simpa [SameToPage] using hs
      subst this
      exact .inl ⟨msg, rfl, congrArg Res.err (spells_inj hsp' hsp)⟩
    | ok _ =>
      obtain ⟨es, hw, _⟩ := two
      cases hw.symm.trans h'
      simp [SameToPage] at hs
  | ok _ =>
    obtain ⟨es, hw, _, g1, g2⟩ := one
    cases hw.symm.trans h
    cases r' with
    | panic => rw [show Wasm.runJs iter' script' = none from two] at h'; cases h'
    | err msg' =>
      obtain ⟨w, hw, ht⟩ := two
      cases hw.symm.trans h'
      obtain ⟨us', rfl, hsp'⟩ := ht
      simp [SameToPage] at hs
    | ok _ =>
      obtain ⟨es', hw', _, g1', g2'⟩ := two
      cases hw'.symm.trans h'
      have hs : ∀ k, mapGet k es = mapGet k es' := hs
      refine .inr ⟨rfl, rfl, fun c n => ?_⟩
      have dir : ∀ {sa sb : Mem} {ea eb : List (List Nat × JsVal)}, (∀ k, mapGet k ea = mapGet k eb) →
          (∀ c us, Spells us c → ∀ n, Graph.memOps.entries sa (.of c) = .ok n → ∃ v, mapGet us ea = some v ∧ Draws v n) →
          (∀ c us, Spells us c → ∀ n, Graph.memOps.entries sb (.of c) = .ok n → ∃ v, mapGet us eb = some v ∧ Draws v n) →
          (∀ us, (∀ c, Spells us c → ∀ n, Graph.memOps.entries sb (.of c) ≠ .ok n) → mapGet us eb = none) →
          Graph.memOps.entries sa (.of c) = .ok n → Graph.memOps.entries sb (.of c) = .ok n := by
        intro sa sb ea eb hab ga gb gb2 hn
        obtain ⟨v, hv, hd⟩ := ga c _ (spells_jsString c) n hn
        cases hb : Graph.memOps.entries sb (.of c) with
        | ok m =>
          obtain ⟨v', hv', hd'⟩ := gb c _ (spells_jsString c) m hb
          rw [hab, hv'] at hv
          cases hv
          rw [draws_inj (pf _ _ _ hn) (pf _ _ _ hb) hd hd']
        | err _ =>
          rw [hab, gb2] at hv
          · cases hv
          · intro c' hc' n' hn'
            rw [spells_inj hc' (spells_jsString c), hb] at hn'
            cases hn'
        | panic =>
          rw [hab, gb2] at hv
          · cases hv
          · intro c' hc' n' hn'
            rw [spells_inj hc' (spells_jsString c), hb] at hn'
            cases hn'
      exact ⟨dir hs g1 g1' g2', dir (fun k => (hs k).symm) g1' g1 g2⟩

/-- Two scripts the page sees as one, and one it tells from them. -/
example :
    (∃ v, Wasm.runJs BMap.toList (lit "let x {a : b}") = some v ∧ Wasm.runJs BMap.toList (lit "let x {}, let x {a : b, a : b}") = some v) ∧
    (runGraph (lit "let x {a : b, a r c}") Graph.memNew).1.isOk = true := by
  refine ⟨⟨Wasm.exportJs [(lit "x", ⟨BSet.ofList [lit "a", lit "b"], BSet.ofList [⟨lit ":", lit "a", lit "b"⟩]⟩)], ?_, ?_⟩, by decide +kernel⟩
  · have : Wasm.run (lit "let x {a : b}") = .ok (BMap.insert ∅ (lit "x") ⟨BSet.ofList [lit "a", lit "b"], BSet.ofList [⟨lit ":", lit "a", lit "b"⟩]⟩) := by decide +kernel
    rw [Wasm.runJs, this]; rfl
  · have : Wasm.run (lit "let x {}, let x {a : b, a : b}") = .ok (BMap.insert ∅ (lit "x") ⟨BSet.ofList [lit "a", lit "b"], BSet.ofList [⟨lit ":", lit "a", lit "b"⟩]⟩) := by decide +kernel
    rw [Wasm.runJs, this]; rfl

end Props
end Verif

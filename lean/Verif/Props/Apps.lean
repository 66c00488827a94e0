import Verif.Spec.Apps
import Verif.Props.GraphLayer
/-!
# The applications: C49–C55
-/
namespace Verif
namespace Props
open Spec

/-! ## C49 -/

theorem step_eq (g : Wasm.Graphology) (e : Entry) :
    Wasm.step g e = ⟨(g.nodes.insert (parts e).1).insert (parts e).2.2, g.edges.insert (edgeOf e)⟩ := by
  cases e <;> rfl

theorem export_mem (n : Network) :
    (∀ x, x ∈ (Wasm.graphToGraphology n).nodes ↔ ∃ e, e ∈ n ∧ (x = (parts e).1 ∨ x = (parts e).2.2)) ∧
    (∀ E, E ∈ (Wasm.graphToGraphology n).edges ↔ ∃ e, e ∈ n ∧ edgeOf e = E) := by
  have key : ∀ (l : List Entry) (g : Wasm.Graphology),
      (∀ x, x ∈ (l.foldl Wasm.step g).nodes ↔ x ∈ g.nodes ∨ ∃ e, e ∈ l ∧ (x = (parts e).1 ∨ x = (parts e).2.2)) ∧
      (∀ E, E ∈ (l.foldl Wasm.step g).edges ↔ E ∈ g.edges ∨ ∃ e, e ∈ l ∧ edgeOf e = E) := by
    intro l
    induction l with
    | nil => intro g; simp
    | cons a l ih =>
      intro g
      rw [List.foldl_cons, step_eq]
      obtain ⟨h1, h2⟩ := ih ⟨(g.nodes.insert (parts a).1).insert (parts a).2.2, g.edges.insert (edgeOf a)⟩
      constructor
      · intro x
        rw [h1]
        simp only [BSet.mem_insert, List.mem_cons]
        constructor
        · rintro ((rfl | rfl | h) | ⟨e, he, h⟩)
          · exact .inr ⟨a, .inl rfl, .inr rfl⟩
          · exact .inr ⟨a, .inl rfl, .inl rfl⟩
          · exact .inl h
          · exact .inr ⟨e, .inr he, h⟩
        · rintro (h | ⟨e, rfl | he, h⟩)
          · exact .inl (.inr (.inr h))
          · rcases h with rfl | rfl
            · exact .inl (.inr (.inl rfl))
            · exact .inl (.inl rfl)
          · exact .inr ⟨e, he, h⟩
      · intro E
        rw [h2]
        simp only [BSet.mem_insert, List.mem_cons]
        constructor
        · rintro ((rfl | h) | ⟨e, he, h⟩)
          · exact .inr ⟨a, .inl rfl, rfl⟩
          · exact .inl h
          · exact .inr ⟨e, .inr he, h⟩
        · rintro (h | ⟨e, rfl | he, h⟩)
          · exact .inl (.inr h)
          · exact .inl (.inl h.symm)
          · exact .inr ⟨e, he, h⟩
  have := key n.toList ⟨∅, ∅⟩
  simpa [Wasm.graphToGraphology, BSet.mem_def] using this

/-- C49: the nodes are exactly the subjects and objects of the entries, the edges exactly the entries' edges. -/
theorem C49_exact (n : Network) :
    (∀ x, x ∈ (Wasm.graphToGraphology n).nodes ↔ ∃ e, e ∈ n ∧ (x = (parts e).1 ∨ x = (parts e).2.2)) ∧
    (∀ E, E ∈ (Wasm.graphToGraphology n).edges ↔ ∃ e, e ∈ n ∧ edgeOf e = E) := export_mem n

/-- C49: both ends of every edge are nodes, and every node is an end of an edge. -/
theorem C49_closed (n : Network) :
    (∀ E, E ∈ (Wasm.graphToGraphology n).edges → E.source ∈ (Wasm.graphToGraphology n).nodes ∧ E.target ∈ (Wasm.graphToGraphology n).nodes) ∧
    (∀ x, x ∈ (Wasm.graphToGraphology n).nodes → ∃ E, E ∈ (Wasm.graphToGraphology n).edges ∧ (x = E.source ∨ x = E.target)) := by
  obtain ⟨h1, h2⟩ := export_mem n
  constructor
  · intro E hE
    obtain ⟨e, he, rfl⟩ := (h2 E).mp hE
    exact ⟨(h1 _).mpr ⟨e, he, .inl rfl⟩, (h1 _).mpr ⟨e, he, .inr rfl⟩⟩
  · intro x hx
    obtain ⟨e, he, h⟩ := (h1 x).mp hx
    exact ⟨_, (h2 _).mpr ⟨e, he, rfl⟩, h⟩

theorem edgeOf_inj {e f : Entry} (he : ParserForm e) (hf : ParserForm f) (h : edgeOf e = edgeOf f) : e = f := by
  rw [← he, ← hf, Graph.canon_eq, Graph.canon_eq]
  simp only [edgeOf, Wasm.Edge.mk.injEq, Graph.parts_entryToTrip] at h
  congr 1
  cases h1 : Graph.entryToTrip e; cases h2 : Graph.entryToTrip f
  simp_all

theorem length_eq_of_same {α : Type u} [SOrd α] {β : Type v} [SOrd β] (n : BSet α) (m : BSet β) (f : α → β)
    (hf : ∀ a, a ∈ n → ∀ b, b ∈ n → f a = f b → a = b) (h : ∀ y, y ∈ m ↔ ∃ x, x ∈ n ∧ f x = y) : m.toList.length = n.toList.length := by
  have h1 : (n.toList.map f).Nodup := by
    rw [List.nodup_iff_pairwise_ne, List.pairwise_map]
    refine (List.pairwise_iff_getElem.mpr ?_)
    intro i j hi hj hij he
    have := hf _ (List.getElem_mem hi) _ (List.getElem_mem hj) he
    have hnd := List.nodup_iff_pairwise_ne.mp n.nodup
    exact List.pairwise_iff_getElem.mp hnd i j hi hj hij this
  have hp : (n.toList.map f).Perm m.toList := by
    rw [List.perm_ext_iff_of_nodup h1 m.nodup]
    intro y
    rw [List.mem_map]
    exact (h y).symm
  rw [← hp.length_eq, List.length_map]

/-- C49: on what a store returns (entries in parser form) every entry gives one edge: as many edges as entries, and the entries can be
told from the edges. -/
theorem C49_one_edge_each (n : Network) (hn : ∀ e ∈ n, ParserForm e) :
    (Wasm.graphToGraphology n).edges.toList.length = n.toList.length ∧
    ∀ m : Network, (∀ e ∈ m, ParserForm e) → (Wasm.graphToGraphology n).edges = (Wasm.graphToGraphology m).edges → n = m := by
  constructor
  · exact length_eq_of_same n _ edgeOf (fun a ha b hb h => edgeOf_inj (hn a ha) (hn b hb) h) (export_mem n).2
  · intro m hm h
    apply BSet.ext
    intro e
    constructor
    · intro he
      have : edgeOf e ∈ (Wasm.graphToGraphology m).edges := by rw [← h]; exact ((export_mem n).2 _).mpr ⟨e, he, rfl⟩
      obtain ⟨f, hf, h'⟩ := ((export_mem m).2 _).mp this
      rw [← edgeOf_inj (hm f hf) (hn e he) h']; exact hf
    · intro he
      have : edgeOf e ∈ (Wasm.graphToGraphology n).edges := by rw [h]; exact ((export_mem m).2 _).mpr ⟨e, he, rfl⟩
      obtain ⟨f, hf, h'⟩ := ((export_mem n).2 _).mp this
      rw [← edgeOf_inj (hn f hf) (hm e he) h']; exact hf

example : (∀ e ∈ sampleNet.map canon, ParserForm e) ∧ (sampleNet.map canon).toList.length = 4 ∧
    (Wasm.graphToGraphology (sampleNet.map canon)).nodes.toList = [lit "a", lit "b", lit "c", lit "d", lit "e"] := by
  refine ⟨?_, by decide +kernel, by decide +kernel⟩
  intro e he
  rw [BSet.mem_map] at he
  obtain ⟨x, _, rfl⟩ := he
  exact (C35_parser_form x).2.1

/-! ## C50 -/

theorem exportLoop_ok {σ : Type u} (L : LigOps σ) (s : σ) : ∀ (cs : List Element) (res : BMap Str Wasm.Graphology),
    (∀ c ∈ cs, ∃ n, L.entries s c = .ok n) →
    ∃ m, Wasm.exportLoop L s cs res = .ok m ∧
      ∀ c, ((∀ e ∈ cs, e.text ≠ c) → m.get? c = res.get? c) ∧
        (∀ e ∈ cs, e.text = c → (∀ e' ∈ cs, e'.text = c → e' = e) → ∃ n, L.entries s e = .ok n ∧ m.get? c = some (Wasm.graphToGraphology n)) := by
  intro cs
  induction cs with
  | nil => intro res _; exact ⟨res, rfl, fun c => ⟨fun _ => rfl, by simp⟩⟩
  | cons a cs ih =>
    intro res h
    obtain ⟨n, hn⟩ := h a List.mem_cons_self
    obtain ⟨m, h1, h2⟩ := ih (res.insert a.text (Wasm.graphToGraphology n)) (fun c hc => h c (List.mem_cons_of_mem _ hc))
    refine ⟨m, by rw [Wasm.exportLoop, hn]; exact h1, ?_⟩
    intro c
    obtain ⟨h3, h4⟩ := h2 c
    constructor
    · intro hne
      rw [h3 (fun e he => hne e (List.mem_cons_of_mem _ he)), BMap.get?_insert_ne _ _ (fun e => hne a List.mem_cons_self e.symm)]
    · intro e he hec huniq
      by_cases hin : ∃ e' ∈ cs, e'.text = c
      · obtain ⟨e', he', hc'⟩ := hin
        have e1 := huniq e' (List.mem_cons_of_mem _ he') hc'
        subst e1
        exact h4 e' he' hec (fun x hx hxc => huniq x (List.mem_cons_of_mem _ hx) hxc)
      · have hea : e = a := by
          rcases List.mem_cons.mp he with h | h
          · exact h
          · exact absurd ⟨e, h, hec⟩ hin
        subst hea
        refine ⟨n, hn, ?_⟩
        rw [h3 (fun e' he' hc => hin ⟨e', he', hc⟩), ← hec, BMap.get?_insert_self]

/-- C50: exporting any store whose answers are those of a world succeeds, with one graph for each collection present, drawn from
exactly its entries, and none for any other name. -/
theorem C50_export {σ : Type u} (L : LigOps σ) (s : σ) (w : EWorld) (h : AgreesE L s w) :
    ∃ m, Wasm.ligatureToGraphology L s = .ok m ∧ ∀ c, match w c with
      | none => m.get? c = none
      | some p => ∃ n : Network, (∀ e, e ∈ n ↔ p e) ∧ m.get? c = some (Wasm.graphToGraphology n) := by
  obtain ⟨⟨l, hl, hnd, hmem⟩, hent⟩ := h
  have hall : ∀ c ∈ l.map Element.of, ∃ n, L.entries s c = .ok n := by
    intro c hc
    rw [List.mem_map] at hc
    obtain ⟨x, hx, rfl⟩ := hc
    obtain ⟨p, hp⟩ := Option.isSome_iff_exists.mp ((hmem x).mp hx)
    obtain ⟨es, h1, _⟩ := hent (.of x) p hp
    exact ⟨es, h1⟩
  obtain ⟨m, h1, h2⟩ := exportLoop_ok L s _ ∅ hall
  refine ⟨m, by rw [Wasm.ligatureToGraphology, hl]; exact h1, ?_⟩
  intro c
  cases hw : w c with
  | none =>
    rw [(h2 c).1]
    · rfl
    · intro e he hec
      rw [List.mem_map] at he
      obtain ⟨x, hx, rfl⟩ := he
      have := (hmem x).mp hx
      simp only at hec
      rw [hec, hw] at this
      cases this
  | some p =>
    have hc : c ∈ l := (hmem c).mpr (by rw [hw]; rfl)
    obtain ⟨n, hn, hg⟩ := (h2 c).2 (.of c) (List.mem_map.mpr ⟨c, hc, rfl⟩) rfl (by
      intro e' he' hc'
      rw [List.mem_map] at he'
      obtain ⟨x, _, rfl⟩ := he'
      simp only at hc'
      rw [hc'])
    obtain ⟨es, h3, h4⟩ := hent (.of c) p hw
    rw [h3] at hn
    cases hn
    exact ⟨_, h4, hg⟩

/-- `C50_export` applies to every state of the in-memory store, here one with two collections. -/
example := C50_export Graph.memOps (runGraph (lit "let x {a : b, a r c}, let y {}") Graph.memNew).2 _ (Graph.agreesE (Mem.agrees _))

/-- C50: the web entry point: a script that succeeds on an empty store has its final store exported, collection by collection; it fails
exactly as the script does, and the unimplemented branches are never reached. -/
theorem C50_run (script : Str) :
    (∀ v s, runGraph script Graph.memNew = (.ok v, s) →
      ∃ m, Wasm.run script = .ok m ∧ ∀ c : Str, m.get? c =
        match Graph.memOps.entries s (.of c) with
        | .ok n => some (Wasm.graphToGraphology n)
        | _ => none) ∧
    (∀ msg, Wasm.run script = .err msg ↔ (runGraph script Graph.memNew).1 = .err msg) ∧
    (Wasm.run script = .panic ↔ (runGraph script Graph.memNew).1 = .panic) := by
  have key : ∀ s : Mem, ∃ m, Wasm.ligatureToGraphology Graph.memOps s = .ok m ∧ ∀ c : Str, m.get? c =
        match Graph.memOps.entries s (.of c) with
        | .ok n => some (Wasm.graphToGraphology n)
        | _ => none := by
    intro s
    have hag : AgreesE Graph.memOps s (Graph.lift (Mem.world s)) := Graph.agreesE (Mem.agrees s)
    obtain ⟨m, h1, h2⟩ := C50_export Graph.memOps s _ hag
    refine ⟨m, h1, ?_⟩
    intro c
    have h3 := h2 c
    cases hw : Graph.lift (Mem.world s) c with
    | none =>
      rw [hw] at h3
      simp only at h3
      rw [h3]
      have : s.colls.get? c = none := by
        simpa [Graph.lift, Mem.world] using hw
      simp [Graph.memOps, Graph.ops, Graph.entries, Mem.ops, Mem.triples, this, Res.map]
    | some p =>
      rw [hw] at h3
      simp only at h3
      obtain ⟨n, hn, hg⟩ := h3
      obtain ⟨es, h4, h5⟩ := hag.2 (.of c) p hw
      have : es = n := BSet.ext fun e => (h5 e).trans (hn e).symm
      rw [h4, hg, this]
  refine ⟨?_, ?_, ?_⟩
  · intro v s h
    rw [Wasm.run, h]
    exact key s
  · intro msg
    rw [Wasm.run]
    cases hr : runGraph script Graph.memNew with
    | mk r s =>
      obtain ⟨m, hm, _⟩ := key s
      cases r <;> simp [hm]
  · rw [Wasm.run]
    cases hr : runGraph script Graph.memNew with
    | mk r s =>
      obtain ⟨m, hm, _⟩ := key s
      cases r <;> simp [hm]

example : (runGraph (lit "let x {a : b, a r c}, let y {}") Graph.memNew).1 = .ok (.network ∅) ∧
    (Wasm.run (lit "let x {a : b, a r c}, let y {}")).map (fun m => m.keys) = .ok [lit "x", lit "y"] := by decide +kernel

/-! ## C51 -/

theorem blank_iff {c : Char} : Repl.isUniWs c = true ↔ Blank c := by
  simp only [Repl.isUniWs, Blank, Bool.or_eq_true, Bool.and_eq_true, decide_eq_true_eq, beq_iff_eq, List.mem_cons, List.not_mem_nil, or_false]
  omega

theorem mem_takeWhile {p : Char → Bool} {c : Char} {l : Str} (h : c ∈ l.takeWhile p) : p c = true := by
  induction l with
  | nil => cases h
  | cons a l ih =>
    rw [List.takeWhile_cons] at h
    split at h
    · rw [List.mem_cons] at h
      rcases h with rfl | h
      · assumption
      · exact ih h
    · cases h

theorem dropWhile_split (p : Char → Bool) (s : Str) : ∃ pre, s = pre ++ s.dropWhile p ∧ ∀ c ∈ pre, p c = true := by
  refine ⟨s.takeWhile p, (List.takeWhile_append_dropWhile).symm, ?_⟩
  intro c hc; exact mem_takeWhile hc

theorem dropWhile_pre {p : Char → Bool} {pre rest : Str} (h : ∀ c ∈ pre, p c = true) (hr : ∀ c, rest.head? = some c → p c = false) :
    (pre ++ rest).dropWhile p = rest := by
  induction pre with
  | nil =>
    cases rest with
    | nil => rfl
    | cons c r => simp [hr c rfl]
  | cons a pre ih => simp [h a List.mem_cons_self, ih fun c hc => h c (List.mem_cons_of_mem _ hc)]

theorem isCommand_iff {line : Str} : Repl.isCommand line = true ↔ CommandLine line := by
  rw [Repl.isCommand, beq_iff_eq, Repl.trimStart]
  constructor
  · intro h
    obtain ⟨pre, hp, hb⟩ := dropWhile_split Repl.isUniWs line
    cases hd : line.dropWhile Repl.isUniWs with
    | nil => rw [hd] at h; cases h
    | cons c r =>
      rw [hd] at h hp
      cases h
      exact ⟨pre, r, hp, fun c hc => blank_iff.mp (hb c hc)⟩
  · rintro ⟨pre, rest, rfl, hb⟩
    rw [dropWhile_pre (fun c hc => blank_iff.mpr (hb c hc))]
    · rfl
    · intro c hc; cases hc; decide

theorem firstWord_iff {line w : Str} : Repl.firstWord line = some w ↔ FirstWord line w := by
  rw [Repl.firstWord, Repl.trimStart]
  constructor
  · intro h
    obtain ⟨pre, hp, hb⟩ := dropWhile_split Repl.isUniWs line
    cases hd : line.dropWhile Repl.isUniWs with
    | nil => rw [hd] at h; cases h
    | cons c r =>
      rw [hd] at h hp
      simp only [Option.some.injEq] at h
      have hc : Repl.isUniWs c = false := by
        have := List.head?_dropWhile_not Repl.isUniWs line
        rw [hd] at this
        simpa using this
      refine ⟨pre, (c :: r).dropWhile (fun x => !Repl.isUniWs x), ?_, fun c hc => blank_iff.mp (hb c hc), ?_, ?_, ?_⟩
      · rw [← h, List.append_assoc, List.takeWhile_append_dropWhile]; exact hp
      · rw [← h]; simp [hc]
      · intro d hd'
        rw [← h] at hd'
        have := mem_takeWhile hd'
        rw [← blank_iff]; simpa using this
      · intro d hd'
        have := List.head?_dropWhile_not (fun x => !Repl.isUniWs x) (c :: r)
        rw [hd'] at this
        simp only at this
        rw [← blank_iff]; simpa using this
  · rintro ⟨pre, post, rfl, hb, hne, hw, hp⟩
    have hw' : ∀ c ∈ w, (fun x => !Repl.isUniWs x) c = true := by
      intro c hc
      have := hw c hc
      rw [← blank_iff] at this
      simpa using this
    rw [List.append_assoc, dropWhile_pre (fun c hc => blank_iff.mpr (hb c hc))]
    · cases w with
      | nil => exact absurd rfl hne
      | cons c w =>
        simp only [List.cons_append, Option.some.injEq]
        rw [← List.cons_append]
        rw [List.takeWhile_append_of_pos hw']
        cases post with
        | nil => simp
        | cons d post =>
          have := blank_iff.mpr (hp d rfl)
          simp [this]
    · intro c hc
      cases w with
      | nil => exact absurd rfl hne
      | cons d w =>
        cases hc
        have := hw' c List.mem_cons_self
        simpa using this

theorem firstWord_unique {line w w' : Str} (h : FirstWord line w) (h' : FirstWord line w') : w = w' := by
  rw [← firstWord_iff] at h h'
  rw [h] at h'; cases h'; rfl

/-- C51: a command line never panics and never touches the store; it ends the session exactly if its first word is `:q` or `:quit`. -/
theorem C51_command (st : Repl.Session) (line : Str) (hr : st.status = .running) (hc : CommandLine line) :
    (Repl.step st (.line line)).store = st.store ∧
    (QuitLine line → (Repl.step st (.line line)).status = .ended) ∧ (¬ QuitLine line → (Repl.step st (.line line)).status = .running) := by
  have hcmd := isCommand_iff.mpr hc
  obtain ⟨w, hw⟩ : ∃ w, Repl.firstWord line = some w := by
    rw [Repl.isCommand, beq_iff_eq] at hcmd
    rw [Repl.firstWord]
    cases h : Repl.trimStart line with
    | nil => rw [h] at hcmd; cases hcmd
    | cons c r => exact ⟨_, rfl⟩
  have hq : QuitLine line ↔ w = lit ":quit" ∨ w = lit ":q" := by
    constructor
    · rintro (h | h)
      · exact .inr (firstWord_unique (firstWord_iff.mp hw) h)
      · exact .inl (firstWord_unique (firstWord_iff.mp hw) h)
    · rintro (rfl | rfl)
      · exact .inr (firstWord_iff.mp hw)
      · exact .inl (firstWord_iff.mp hw)
  rw [hq]
  simp only [Repl.step, hr, hcmd, if_true, Repl.handleCommand, hw]
  by_cases h1 : w = lit ":status" ∨ w = lit ":s"
  · simp only [if_pos h1]
    refine ⟨trivial, ?_, fun _ => rfl⟩
    rintro (rfl | rfl) <;> exact absurd h1 (by decide)
  · simp only [if_neg h1]
    by_cases h2 : w = lit ":quit" ∨ w = lit ":q"
    · simp only [if_pos h2]
      exact ⟨trivial, fun _ => rfl, fun h => absurd h2 h⟩
    · simp only [if_neg h2]
      by_cases h3 : w = lit ":help" ∨ w = lit ":h"
      · simp only [if_pos h3]; exact ⟨trivial, fun h => absurd h h2, fun _ => rfl⟩
      · simp only [if_neg h3]
        by_cases h4 : w = lit ":broadcast"
        · simp only [if_pos h4]; exact ⟨trivial, fun h => absurd h h2, fun _ => rfl⟩
        · simp only [if_neg h4]; exact ⟨trivial, fun h => absurd h h2, fun _ => rfl⟩

/-- `C51_command` applies to the session after a script, for a line with a command and an argument. -/
example := C51_command (Repl.session [.line (lit "let x {a : b}")]) (lit "  :status now") (by decide +kernel) (isCommand_iff.mp (by decide +kernel))

/-- C51: any other line is run as a script on the store; an error leaves the session running, a panic or a quote as result kills it. -/
theorem C51_script (st : Repl.Session) (line : Str) (hr : st.status = .running) (hc : ¬ CommandLine line) :
    (Repl.step st (.line line)).store = (runGraph line st.store).2 ∧
    ((Repl.step st (.line line)).status = .panicked ↔
      (runGraph line st.store).1 = .panic ∨ ∃ q, (runGraph line st.store).1 = .ok (.quote q)) ∧
    (Repl.step st (.line line)).status ≠ .ended := by
  have hcmd : Repl.isCommand line = false := by rw [← Bool.not_eq_true, isCommand_iff]; exact hc
  simp only [Repl.step, hr, hcmd]
  cases h : runGraph line st.store with
  | mk r s1 =>
    cases r with
    | err m => simp
    | panic => simp
    | ok v =>
      cases v with
      | element e => simp [Repl.showValue]
      | quote q => simp [Repl.showValue]
      | network n =>
        simp only [Repl.showValue]
        by_cases hn : n.isEmpty = true <;> simp [hn]

/-- `C51_script` applies to a script line with a colon in it. -/
example := C51_script (Repl.session [.line (lit ":help")]) (lit "let :a {}") (by decide +kernel) (by rw [← isCommand_iff]; decide +kernel)

/-- C51: end of input, an interrupt or a read error ends the session and leaves the store alone. -/
theorem C51_end_of_input (st : Repl.Session) (i : Repl.Input) (hr : st.status = .running) (hi : ∀ l, i ≠ .line l) :
    (Repl.step st i).status = .ended ∧ (Repl.step st i).store = st.store := by
  cases i with
  | line l => exact absurd rfl (hi l)
  | _ => simp [Repl.step, hr]

/-- `C51_end_of_input` applies to an interrupt after a script. -/
example := C51_end_of_input (Repl.session [.line (lit "let x {a : b}")]) .interrupted (by decide +kernel) (fun _ => nofun)

/-- C51: what is printed: for a command line what its first word calls for, and a farewell or the reader's error when the input ends. -/
theorem C51_prints (st : Repl.Session) (hr : st.status = .running) :
    (∀ line w lines, CommandLine line → FirstWord line w → CommandPrints w lines →
      (Repl.step st (.line line)).out = st.out ++ lines.map .text) ∧
    (Repl.step st .interrupted).out = st.out ++ [.text (lit "Good Bye!")] ∧ (Repl.step st .eof).out = st.out ++ [.text (lit "Good Bye!")] ∧
    ∀ m, (Repl.step st (.error m)).out = st.out ++ [.debug (lit "Error: ") m] := by
  refine ⟨?_, by simp only [Repl.step, hr], by simp only [Repl.step, hr], fun m => by simp only [Repl.step, hr]⟩
  intro line w lines hc hw hp
  have hcmd := isCommand_iff.mpr hc
  have hw' := firstWord_iff.mpr hw
  have key : Repl.handleCommand line = some (decide (¬ (w = lit ":quit" ∨ w = lit ":q")), lines.map .text) := by
    rw [Repl.handleCommand, hw']
    cases hp with
    | status h =>
      simp only [List.mem_cons, List.not_mem_nil, or_false] at h
      rcases h with rfl | rfl <;> decide +kernel
    | nothing h =>
      simp only [List.mem_cons, List.not_mem_nil, or_false] at h
      rcases h with rfl | rfl | rfl | rfl | rfl <;> decide +kernel
    | unknown h =>
      simp only [List.mem_cons, List.not_mem_nil, or_false, not_or] at h
      obtain ⟨h1, h2, h3, h4, h5, h6, h7⟩ := h
      simp only [h1, h2, h3, h4, h5, h6, h7, or_self, if_false]
      rfl
  simp only [Repl.step, hr, hcmd, if_true, key]

/-- Every line that is a command has a first word, and every word calls for something; here one of each kind. -/
example : CommandPrints (lit ":s") [lit "..."] ∧ CommandPrints (lit ":h") [] ∧ CommandPrints (lit ":x") [lit "Unknown command - :x"] ∧
    FirstWord (lit "  :x y") (lit ":x") ∧ CommandLine (lit "  :x y") :=
  ⟨.status (by decide), .nothing (by decide), .unknown (by decide),
    firstWord_iff.mp (by decide +kernel), isCommand_iff.mp (by decide +kernel)⟩

theorem step_stopped {st : Repl.Session} (h : st.status ≠ .running) (i : Repl.Input) : Repl.step st i = st := by
  cases hs : st.status with
  | running => exact absurd hs h
  | _ => simp only [Repl.step, hs]

theorem foldl_stopped {st : Repl.Session} (h : st.status ≠ .running) (is : List Repl.Input) : is.foldl Repl.step st = st := by
  induction is with
  | nil => rfl
  | cons i is ih => rw [List.foldl_cons, step_stopped h, ih]

theorem scripts_snoc_command {is : List Repl.Input} {ss : List Str} (h : Scripts is ss) {l : Str} (hl : CommandLine l) :
    Scripts (is ++ [.line l]) ss := by
  induction h with
  | nil => exact .command hl .nil
  | command h1 _ ih => exact .command h1 ih
  | script h1 _ ih => exact .script h1 ih

theorem scripts_snoc_script {is : List Repl.Input} {ss : List Str} (h : Scripts is ss) {l : Str} (hl : ¬ CommandLine l) :
    Scripts (is ++ [.line l]) (ss ++ [l]) := by
  induction h with
  | nil => exact .script hl .nil
  | command h1 _ ih => exact .command h1 ih
  | script h1 _ ih => exact .script h1 ih

theorem session_snoc (is : List Repl.Input) (i : Repl.Input) : Repl.session (is ++ [i]) = Repl.step (Repl.session is) i := by
  simp [Repl.session]

/-- C51: while a session runs, its inputs were all lines, and its store is the empty store after the lines that are not commands, run
as scripts in order. -/
theorem C51_session_store (inputs : List Repl.Input) (h : (Repl.session inputs).status = .running) :
    ∃ scripts, Scripts inputs scripts ∧ (Repl.session inputs).store = storeAfter scripts Graph.memNew := by
  have key : ∀ n (inputs : List Repl.Input), inputs.length = n → (Repl.session inputs).status = .running →
      ∃ scripts, Scripts inputs scripts ∧ (Repl.session inputs).store = storeAfter scripts Graph.memNew := by
    intro n
    induction n with
    | zero =>
      intro inputs hl _
      rw [List.length_eq_zero_iff] at hl
      subst hl
      exact ⟨[], .nil, rfl⟩
    | succ n ih =>
      intro inputs hl h
      have hne : inputs ≠ [] := by rintro rfl; cases hl
      obtain ⟨is, i, rfl⟩ : ∃ is i, inputs = is ++ [i] := ⟨_, _, (List.dropLast_concat_getLast hne).symm⟩
      rw [session_snoc] at h ⊢
      have hrun : (Repl.session is).status = .running := by
        apply Classical.byContradiction
        intro hn
        rw [step_stopped hn] at h
        exact hn h
      obtain ⟨ss, h1, h2⟩ := ih is (by simpa using hl) hrun
      cases i with
      | line l =>
        by_cases hc : CommandLine l
        · exact ⟨ss, scripts_snoc_command h1 hc, by rw [(C51_command _ l hrun hc).1, h2]⟩
        · refine ⟨ss ++ [l], scripts_snoc_script h1 hc, ?_⟩
          rw [(C51_script _ l hrun hc).1, h2, storeAfter, storeAfter, List.foldl_append]
          rfl
      | _ =>
        exfalso
        rw [(C51_end_of_input _ _ hrun (by intro l h; cases h)).1] at h
        cases h
  exact key _ inputs rfl h

/-- `C51_session_store` applies to a session with scripts, a command and an error. -/
example := C51_session_store [.line (lit "let x {a : b}"), .line (lit " :help"), .line (lit "nope"), .line (lit "read x")] (by decide +kernel)

theorem first_stop (inputs : List Repl.Input) (h : (Repl.session inputs).status ≠ .running) :
    ∃ pre i post, inputs = pre ++ i :: post ∧ (Repl.session pre).status = .running ∧ Repl.session inputs = Repl.step (Repl.session pre) i ∧
      (Repl.step (Repl.session pre) i).status ≠ .running := by
  have key : ∀ n (inputs : List Repl.Input), inputs.length = n → (Repl.session inputs).status ≠ .running →
    ∃ pre i post, inputs = pre ++ i :: post ∧ (Repl.session pre).status = .running ∧ Repl.session inputs = Repl.step (Repl.session pre) i ∧
      (Repl.step (Repl.session pre) i).status ≠ .running := by
    intro n
    induction n with
    | zero =>
      intro inputs hl h
      rw [List.length_eq_zero_iff] at hl
      subst hl
      exact absurd rfl h
    | succ n ih =>
      intro inputs hl h
      have hne : inputs ≠ [] := by rintro rfl; cases hl
      obtain ⟨is, i, rfl⟩ : ∃ is i, inputs = is ++ [i] := ⟨_, _, (List.dropLast_concat_getLast hne).symm⟩
      by_cases hr : (Repl.session is).status = .running
      · exact ⟨is, i, [], rfl, hr, session_snoc is i, by rwa [session_snoc] at h⟩
      · obtain ⟨pre, j, post, rfl, h1, h2, h3⟩ := ih is (by simpa using hl) hr
        refine ⟨pre, j, post ++ [i], by simp, h1, ?_, h3⟩
        rw [session_snoc, step_stopped hr, h2]
  exact key _ inputs rfl h

/-- C51: a session has ended exactly if, while it was running, it got a quit line, or the input ended. -/
theorem C51_ends (inputs : List Repl.Input) :
    (Repl.session inputs).status = .ended ↔
      ∃ pre i post, inputs = pre ++ i :: post ∧ (Repl.session pre).status = .running ∧
        ((∀ l, i ≠ .line l) ∨ ∃ l, i = .line l ∧ QuitLine l) := by
  have hcq : ∀ {l}, QuitLine l → CommandLine l := by
    rintro l (⟨pre, post, rfl, hb, _⟩ | ⟨pre, post, rfl, hb, _⟩)
    · exact ⟨pre, 'q' :: post, by rw [List.append_assoc]; rfl, hb⟩
    · exact ⟨pre, lit "quit" ++ post, by rw [List.append_assoc]; rfl, hb⟩
  constructor
  · intro h
    obtain ⟨pre, i, post, rfl, h1, h2, h3⟩ := first_stop inputs (by rw [h]; exact nofun)
    refine ⟨pre, i, post, rfl, h1, ?_⟩
    rw [h2] at h
    cases i with
    | line l =>
      right
      refine ⟨l, rfl, ?_⟩
      apply Classical.byContradiction
      intro hq
      by_cases hc : CommandLine l
      · rw [(C51_command _ l h1 hc).2.2 hq] at h; cases h
      · exact (C51_script _ l h1 hc).2.2 h
    | _ => left; intro l; exact nofun
  · rintro ⟨pre, i, post, rfl, h1, h2⟩
    have : (Repl.step (Repl.session pre) i).status = .ended := by
      rcases h2 with h2 | ⟨l, rfl, h2⟩
      · exact (C51_end_of_input _ i h1 h2).1
      · exact (C51_command _ l h1 (hcq h2)).2.1 h2
    rw [Repl.session, List.foldl_append, List.foldl_cons]
    rw [show List.foldl Repl.step Repl.Session.new pre = Repl.session pre from rfl, foldl_stopped (by rw [this]; exact nofun), this]

/-- C51: a session dies of a panic exactly if, while it was running, a script panicked or yielded a quote. -/
theorem C51_panics (inputs : List Repl.Input) :
    (Repl.session inputs).status = .panicked ↔
      ∃ pre l post, inputs = pre ++ .line l :: post ∧ (Repl.session pre).status = .running ∧ ¬ CommandLine l ∧
        ((runGraph l (Repl.session pre).store).1 = .panic ∨ ∃ q, (runGraph l (Repl.session pre).store).1 = .ok (.quote q)) := by
  constructor
  · intro h
    obtain ⟨pre, i, post, rfl, h1, h2, h3⟩ := first_stop inputs (by rw [h]; exact nofun)
    rw [h2] at h
    cases i with
    | line l =>
      by_cases hc : CommandLine l
      · exfalso
        by_cases hq : QuitLine l
        · rw [(C51_command _ l h1 hc).2.1 hq] at h; cases h
        · rw [(C51_command _ l h1 hc).2.2 hq] at h; cases h
      · exact ⟨pre, l, post, rfl, h1, hc, (C51_script _ l h1 hc).2.1.mp h⟩
    | _ => exfalso; rw [(C51_end_of_input _ _ h1 (by intro l h; cases h)).1] at h; cases h
  · rintro ⟨pre, l, post, rfl, h1, hc, h2⟩
    have := (C51_script _ l h1 hc).2.1.mpr h2
    rw [Repl.session, List.foldl_append, List.foldl_cons]
    rw [show List.foldl Repl.step Repl.Session.new pre = Repl.session pre from rfl, foldl_stopped (by rw [this]; exact nofun), this]

example : CommandLine (lit "  :status now") ∧ QuitLine (lit "\t:q please") ∧ ¬ CommandLine (lit "let :a {}") ∧
    (Repl.session [.line (lit "let x {a : b}"), .line (lit " :help"), .line (lit "nope"), .line (lit "read x")]).status = .running ∧
    (Repl.session [.line (lit "let x {a : b}"), .line (lit ":quit"), .line (lit "let x {}")]).status = .ended ∧
    (Repl.session [.line (lit "id ()")]).status = .panicked := by
  refine ⟨isCommand_iff.mp (by decide +kernel), .inl (firstWord_iff.mp (by decide +kernel)), ?_, by decide +kernel, by decide +kernel,
    by decide +kernel⟩
  rw [← isCommand_iff]; decide +kernel

/-! ## C52 -/

theorem serve_snoc (rs : List (Option Str)) (r : Option Str) : Zmq.serve (rs ++ [r]) = Zmq.step (Zmq.serve rs) r := by simp [Zmq.serve]

theorem serve_dead {sv : Zmq.Server} (h : sv.dead = true) (rs : List (Option Str)) : rs.foldl Zmq.step sv = sv := by
  induction rs with
  | nil => rfl
  | cons r rs ih => rw [List.foldl_cons, show Zmq.step sv r = sv by simp [Zmq.step, h], ih]

theorem zmq_step {sv : Zmq.Server} (h : sv.dead = false) (q : Str) :
    (Zmq.step sv (some q)).store = (runGraph q sv.store).2 ∧
    match replyTo q sv.store with
    | some r => (Zmq.step sv (some q)).replies = sv.replies ++ [r] ∧ (Zmq.step sv (some q)).dead = false
    | none => (Zmq.step sv (some q)).replies = sv.replies ∧ (Zmq.step sv (some q)).dead = true := by
  simp only [Zmq.step, h, replyTo]
  cases hr : runGraph q sv.store with
  | mk r s1 => cases r <;> simp

theorem serve_alive (reqs : List Str) :
    ((Zmq.serve (reqs.map some)).dead = false →
      (Zmq.serve (reqs.map some)).store = storeAfter reqs Graph.memNew ∧ (Zmq.serve (reqs.map some)).replies.length = reqs.length ∧
      ∀ (i : Nat) (h : i < reqs.length), (Zmq.serve (reqs.map some)).replies[i]? = replyTo reqs[i] (storeAfter (reqs.take i) Graph.memNew) ∧
        (replyTo reqs[i] (storeAfter (reqs.take i) Graph.memNew)).isSome) := by
  have key : ∀ n (reqs : List Str), reqs.length = n → (Zmq.serve (reqs.map some)).dead = false →
      (Zmq.serve (reqs.map some)).store = storeAfter reqs Graph.memNew ∧ (Zmq.serve (reqs.map some)).replies.length = reqs.length ∧
      ∀ (i : Nat) (h : i < reqs.length), (Zmq.serve (reqs.map some)).replies[i]? = replyTo reqs[i] (storeAfter (reqs.take i) Graph.memNew) ∧
        (replyTo reqs[i] (storeAfter (reqs.take i) Graph.memNew)).isSome := by
    intro n
    induction n with
    | zero =>
      intro reqs hl _
      rw [List.length_eq_zero_iff] at hl
      subst hl
      exact ⟨rfl, rfl, by intro i h; simp at h⟩
    | succ n ih =>
      intro reqs hl h
      have hne : reqs ≠ [] := by rintro rfl; cases hl
      obtain ⟨rs, q, rfl⟩ : ∃ rs q, reqs = rs ++ [q] := ⟨_, _, (List.dropLast_concat_getLast hne).symm⟩
      rw [List.map_append, List.map_singleton, serve_snoc] at h ⊢
      have halive : (Zmq.serve (rs.map some)).dead = false := by
        rw [← Bool.not_eq_true]
        intro hd
        rw [Zmq.step, if_pos hd] at h
        rw [h] at hd; cases hd
      obtain ⟨h1, h2, h3⟩ := ih rs (by simpa using hl) halive
      obtain ⟨h4, h5⟩ := zmq_step halive q
      cases hr : replyTo q (Zmq.serve (rs.map some)).store with
      | none => rw [hr] at h5; simp only at h5; rw [h5.2] at h; cases h
      | some r =>
        rw [hr] at h5
        simp only at h5
        refine ⟨?_, ?_, ?_⟩
        · rw [h4, h1, storeAfter, storeAfter, List.foldl_append]; rfl
        · rw [h5.1, List.length_append, List.length_append, h2]; rfl
        · intro i hi
          rw [h5.1]
          by_cases hlt : i < rs.length
          · have h6 := h3 i hlt
            have e1 : (rs ++ [q])[i] = rs[i] := List.getElem_append_left hlt
            rw [e1, List.take_append_of_le_length (Nat.le_of_lt hlt), List.getElem?_append_left (by omega)]
            exact h6
          · have hi' : i = rs.length := by simp at hi; omega
            subst hi'
            have e1 : (rs ++ [q])[rs.length] = q := by simp
            rw [e1, List.take_left, ← h1, hr, ← h2]
            simp
  exact key _ reqs rfl

/-- C52: while the server lives, its store is the empty store after all requests in order, it has sent as many replies as it got
requests, and the i-th reply is the rendering of the i-th request on the store left by the requests before it, failed ones included. -/
theorem C52_replies (reqs : List Str) (h : (Zmq.serve (reqs.map some)).dead = false) :
    (Zmq.serve (reqs.map some)).store = storeAfter reqs Graph.memNew ∧ (Zmq.serve (reqs.map some)).replies.length = reqs.length ∧
    ∀ (i : Nat) (hi : i < reqs.length), (Zmq.serve (reqs.map some)).replies[i]? = replyTo reqs[i] (storeAfter (reqs.take i) Graph.memNew) :=
  ⟨(serve_alive reqs h).1, (serve_alive reqs h).2.1, fun i hi => ((serve_alive reqs h).2.2 i hi).1⟩

/-- `C52_replies` applies to requests of which one fails. -/
example := C52_replies [lit "let x {a : b}", lit "nope", lit "read x"] (by decide +kernel)

theorem alive_some {reqs : List (Option Str)} (h : (Zmq.serve reqs).dead = false) : ∃ l : List Str, reqs = l.map some := by
  have key : ∀ n (reqs : List (Option Str)), reqs.length = n → (Zmq.serve reqs).dead = false → ∃ l : List Str, reqs = l.map some := by
    intro n
    induction n with
    | zero =>
      intro reqs hl _
      rw [List.length_eq_zero_iff] at hl
      exact ⟨[], hl⟩
    | succ n ih =>
      intro reqs hl h
      have hne : reqs ≠ [] := by rintro rfl; cases hl
      obtain ⟨rs, q, rfl⟩ : ∃ rs q, reqs = rs ++ [q] := ⟨_, _, (List.dropLast_concat_getLast hne).symm⟩
      rw [serve_snoc] at h
      have halive : (Zmq.serve rs).dead = false := by
        rw [← Bool.not_eq_true]
        intro hd
        rw [show Zmq.step (Zmq.serve rs) q = Zmq.serve rs by simp [Zmq.step, hd]] at h
        rw [h] at hd; cases hd
      obtain ⟨l, rfl⟩ := ih rs (by simpa using hl) halive
      cases q with
      | none => rw [Zmq.step, if_neg (by rw [halive]; decide)] at h; cases h
      | some q => exact ⟨l ++ [q], by simp⟩
  exact key _ reqs rfl h

/-- C52: the service is dead exactly if, after requests it answered, it got one that is not text or one that panics; nothing is sent or
changed after that. -/
theorem C52_dies (reqs : List (Option Str)) :
    ((Zmq.serve reqs).dead = true ↔
      ∃ pre r post, reqs = pre.map some ++ r :: post ∧ (Zmq.serve (pre.map some)).dead = false ∧
        ∀ q, r = some q → replyTo q (storeAfter pre Graph.memNew) = none) ∧
    ((Zmq.serve reqs).dead = true → ∀ more, Zmq.serve (reqs ++ more) = Zmq.serve reqs) := by
  constructor
  · constructor
    · intro h
      have key : ∀ n (reqs : List (Option Str)), reqs.length = n → (Zmq.serve reqs).dead = true →
          ∃ pre r post, reqs = pre.map some ++ r :: post ∧ (Zmq.serve (pre.map some)).dead = false ∧
            ∀ q, r = some q → replyTo q (storeAfter pre Graph.memNew) = none := by
        intro n
        induction n with
        | zero =>
          intro reqs hl h
          rw [List.length_eq_zero_iff] at hl
          subst hl
          cases h
        | succ n ih =>
          intro reqs hl h
          have hne : reqs ≠ [] := by rintro rfl; cases hl
          obtain ⟨rs, q, rfl⟩ : ∃ rs q, reqs = rs ++ [q] := ⟨_, _, (List.dropLast_concat_getLast hne).symm⟩
          cases hd : (Zmq.serve rs).dead with
          | true =>
            obtain ⟨pre, r, post, rfl, h1, h2⟩ := ih rs (by simpa using hl) hd
            exact ⟨pre, r, post ++ [q], by simp, h1, h2⟩
          | false =>
            obtain ⟨l, rfl⟩ := alive_some hd
            refine ⟨l, q, [], rfl, hd, ?_⟩
            rintro q rfl
            rw [serve_snoc] at h
            obtain ⟨-, h5⟩ := zmq_step hd q
            rw [(serve_alive l hd).1] at h5
            cases hr : replyTo q (storeAfter l Graph.memNew) with
            | none => rfl
            | some r => rw [hr] at h5; simp only at h5; rw [h5.2] at h; cases h
      exact key _ reqs rfl h
    · rintro ⟨pre, r, post, rfl, h1, h2⟩
      have hd : (Zmq.step (Zmq.serve (pre.map some)) r).dead = true := by
        cases r with
        | none => rw [Zmq.step, if_neg (by rw [h1]; decide)]
        | some q =>
          obtain ⟨-, h5⟩ := zmq_step h1 q
          rw [(serve_alive pre h1).1, h2 q rfl] at h5
          exact h5.2
      rw [Zmq.serve, List.foldl_append, List.foldl_cons]
      rw [show List.foldl Zmq.step Zmq.Server.new (pre.map some) = Zmq.serve (pre.map some) from rfl, serve_dead hd, hd]
  · intro h more
    rw [Zmq.serve, List.foldl_append]
    exact serve_dead h more

example : (Zmq.serve ([lit "let x {a : b}", lit "nope", lit "read x"].map some)).replies =
      [lit "{}", lit "Could not find command: nope", lit "{\"a\" : \"b\"}"] ∧
    (Zmq.serve ([lit "let x {a : b}", lit "nope", lit "read x"].map some)).dead = false ∧
    (Zmq.serve [some (lit "read x"), none, some (lit "docs")]).dead = true ∧
    (Zmq.serve [some (lit "read x"), some (lit "read {}"), some (lit "docs")]).replies.length = 1 := by decide +kernel

/-! ## C53 -/

/-- The pad after a sequence of events. -/
def padAfter (h : List Pad.Event) : Pad.Pad := h.foldl Pad.step .new

/-- The script in the pad: the last edit, or nothing at the start. -/
def lastEdit (h : List Pad.Event) : Str :=
  (h.filterMap fun | .edit s => some s | .run => none).getLast?.getD []

theorem lastEdit_edit (h : List Pad.Event) (s : Str) : lastEdit (h ++ [.edit s]) = s := by simp [lastEdit]
theorem lastEdit_run (h : List Pad.Event) : lastEdit (h ++ [.run]) = lastEdit h := by simp [lastEdit]

/-- C53: the whole history of a pad.  It starts alive; it is dead exactly when Run was pressed on a script whose run on an empty store
panics; while alive its script is the last edit, and it shows the reply to the script at the last Run, or nothing before the first. -/
theorem C53_history (h : List Pad.Event) :
    ((padAfter h).crashed = true ↔ ∃ a b, h = a ++ .run :: b ∧ replyTo (lastEdit a) Graph.memNew = none) ∧
    ((padAfter h).crashed = false → (padAfter h).script = lastEdit h ∧
      ((.run ∉ h ∧ (padAfter h).result = []) ∨
       ∃ a b, h = a ++ .run :: b ∧ .run ∉ b ∧ replyTo (lastEdit a) Graph.memNew = some (padAfter h).result)) := by
  suffices H : ∀ r : List Pad.Event, ∀ h, h = r.reverse →
    ((padAfter h).crashed = true ↔ ∃ a b, h = a ++ .run :: b ∧ replyTo (lastEdit a) Graph.memNew = none) ∧
    ((padAfter h).crashed = false → (padAfter h).script = lastEdit h ∧
      ((.run ∉ h ∧ (padAfter h).result = []) ∨
       ∃ a b, h = a ++ .run :: b ∧ .run ∉ b ∧ replyTo (lastEdit a) Graph.memNew = some (padAfter h).result)) from
    H h.reverse h (by simp)
  intro r
  induction r with
  | nil =>
    rintro h rfl
    refine ⟨⟨nofun, ?_⟩, fun _ => ⟨rfl, .inl ⟨by simp, rfl⟩⟩⟩
    rintro ⟨a, b, e, _⟩; simp at e
  | cons ev r ih =>
    rintro h rfl
    obtain ⟨ih1, ih2⟩ := ih _ rfl
    rw [List.reverse_cons]
    generalize r.reverse = g at ih1 ih2
    have e : padAfter (g ++ [ev]) = Pad.step (padAfter g) ev := by simp [padAfter]
    have split : ∀ (P : Str → Prop), (∃ a b, g ++ [ev] = a ++ .run :: b ∧ P (lastEdit a)) ↔
        (∃ a b, g = a ++ .run :: b ∧ P (lastEdit a)) ∨ (ev = .run ∧ P (lastEdit g)) := by
      intro P
      constructor
      · rintro ⟨a, b, e, hp⟩
        rcases List.eq_nil_or_concat b with rfl | ⟨b', x, rfl⟩
        · obtain ⟨rfl, e2⟩ := List.append_inj' e rfl
          cases e2; exact .inr ⟨rfl, hp⟩
        · have e' : g ++ [ev] = (a ++ .run :: b') ++ [x] := by rw [e]; simp
          obtain ⟨rfl, _⟩ := List.append_inj' e' rfl
          exact .inl ⟨a, b', rfl, hp⟩
      · rintro (⟨a, b, rfl, hp⟩ | ⟨rfl, hp⟩)
        · exact ⟨a, b ++ [ev], by simp, hp⟩
        · exact ⟨g, [], rfl, hp⟩
    rw [e, split (fun s => replyTo s Graph.memNew = none), ← ih1]
    cases hc : (padAfter g).crashed with
    | true =>
      have : Pad.step (padAfter g) ev = padAfter g := by simp [Pad.step, hc]
      rw [this, hc]; simp
    | false =>
      obtain ⟨hs, hr⟩ := ih2 hc
      cases ev with
      | edit s =>
        have : Pad.step (padAfter g) (.edit s) = { padAfter g with script := s } := by simp [Pad.step, hc]
        rw [this]
        refine ⟨by simp [hc], fun _ => ⟨(lastEdit_edit g s).symm, ?_⟩⟩
        rcases hr with ⟨h1, h2⟩ | ⟨a, b, rfl, h1, h2⟩
        · exact .inl ⟨by simp [h1], h2⟩
        · exact .inr ⟨a, b ++ [.edit s], by simp, by simp [h1], h2⟩
      | run =>
        rw [lastEdit_run, ← hs]
        simp only [Pad.step, hc, replyTo]
        cases hrun : (runGraph (padAfter g).script Graph.memNew).1 with
        | panic => simp
        | ok v =>
          refine ⟨by simp, fun _ => ⟨rfl, .inr ⟨g, [], rfl, by simp, ?_⟩⟩⟩
          rw [← hs, hrun]; rfl
        | err m =>
          refine ⟨by simp, fun _ => ⟨rfl, .inr ⟨g, [], rfl, by simp, ?_⟩⟩⟩
          rw [← hs, hrun]; rfl

/-- C53: whatever was done before, after editing the script and pressing Run the pad shows the outcome of the script on an empty store;
it crashes exactly if that run panics. -/
theorem C53_pad (h : List Pad.Event) (script : Str) (hc : (padAfter h).crashed = false) :
    ((padAfter (h ++ [.edit script, .run])).crashed = true ↔ replyTo script Graph.memNew = none) ∧
    ∀ r, replyTo script Graph.memNew = some r → (padAfter (h ++ [.edit script, .run])).result = r := by
  have e : padAfter (h ++ [.edit script, .run]) = Pad.step (Pad.step (padAfter h) (.edit script)) .run := by
    simp [padAfter]
  rw [e]
  have e1 : Pad.step (padAfter h) (.edit script) = { padAfter h with script := script } := by
    simp only [Pad.step, hc]; rfl
  rw [e1]
  simp only [Pad.step, hc, replyTo]
  cases (runGraph script Graph.memNew).1 <;> simp

/-- `C53_pad` applies to a pad that has run a script. -/
example := C53_pad [.edit (lit "let x {a : b}"), .run] (lit "read x") (by decide +kernel)

/-- C53: so two pads with any two pasts show the same for the same script. -/
theorem C53_no_memory (h h' : List Pad.Event) (script : Str) (hc : (padAfter h).crashed = false) (hc' : (padAfter h').crashed = false)
    (hr : (padAfter (h ++ [.edit script, .run])).crashed = false) :
    (padAfter (h' ++ [.edit script, .run])).crashed = false ∧
    (padAfter (h ++ [.edit script, .run])).result = (padAfter (h' ++ [.edit script, .run])).result := by
  obtain ⟨h1, h2⟩ := C53_pad h script hc
  obtain ⟨h3, h4⟩ := C53_pad h' script hc'
  cases hrep : replyTo script Graph.memNew with
  | none => rw [h1.mpr hrep] at hr; cases hr
  | some r =>
    refine ⟨?_, by rw [h2 r hrep, h4 r hrep]⟩
    rw [← Bool.not_eq_true, h3, hrep]; exact nofun

/-- `C53_no_memory` applies to a used and a new pad. -/
example := C53_no_memory [.edit (lit "let x {a : b}"), .run] [] (lit "read x") (by decide +kernel) (by decide +kernel) (by decide +kernel)

/-- C53: pressing Run again without editing changes nothing. -/
theorem C53_run_again (h : List Pad.Event) : padAfter (h ++ [.run, .run]) = padAfter (h ++ [.run]) := by
  have e : padAfter (h ++ [.run, .run]) = Pad.step (Pad.step (padAfter h) .run) .run := by simp [padAfter]
  have e1 : padAfter (h ++ [.run]) = Pad.step (padAfter h) .run := by simp [padAfter]
  rw [e, e1]
  cases hc : (padAfter h).crashed with
  | true => simp [Pad.step, hc]
  | false =>
    cases hr : (runGraph (padAfter h).script Graph.memNew).1 <;> simp [Pad.step, hc, hr]

example : (padAfter [.edit (lit "let x {a : b}"), .run, .edit (lit "id y"), .run, .edit (lit "read x"), .run]).result =
      lit "Error Collection `x` not found." ∧
    (padAfter [.edit (lit "let x {a : b}, read x"), .run]).result = lit "{\"a\" : \"b\"}" ∧
    (padAfter [.edit (lit "read"), .run]).crashed = true := by decide +kernel

/-! ## C54 -/

/-- A test file: its name ends in `.wander`. -/
def IsTestFile (f : Str × Str) : Prop := ∃ stem, f.1 = stem ++ lit ".wander"

/-- The script of the file fails with an error, or panics, in a fresh store. -/
def Succeeds (f : Str × Str) : Prop := ∃ v, (runGraph f.2 Graph.memNew).1 = .ok v
def Crashes (f : Str × Str) : Prop := (runGraph f.2 Graph.memNew).1 = .panic

instance (f : Str × Str) : Decidable (Succeeds f) :=
  match h : (runGraph f.2 Graph.memNew).1 with
  | .ok v => isTrue ⟨v, h⟩
  | .err m => isFalse (by rintro ⟨v, h'⟩; rw [h] at h'; cases h')
  | .panic => isFalse (by rintro ⟨v, h'⟩; rw [h] at h'; cases h')

theorem isTest_iff {name : Str} : Suite.isTest name = true ↔ ∃ stem, name = stem ++ lit ".wander" := by
  rw [Suite.isTest, List.isSuffixOf_iff_suffix]
  constructor
  · rintro ⟨t, h⟩; exact ⟨t, h.symm⟩
  · rintro ⟨t, h⟩; exact ⟨t, h.symm⟩

instance (f : Str × Str) : Decidable (IsTestFile f) := decidable_of_iff (Suite.isTest f.1 = true) isTest_iff

theorem suite_loop (files : List (Str × Str)) : ∀ c : Suite.Counts,
    ((∃ f ∈ files, IsTestFile f ∧ Crashes f) → Suite.loop files c = none) ∧
    ((¬ ∃ f ∈ files, IsTestFile f ∧ Crashes f) → ∃ c', Suite.loop files c = some c' ∧
      c'.total = c.total + (files.filter fun f => IsTestFile f).length ∧
      c'.total - c'.failed = c.total - c.failed + (files.filter fun f => IsTestFile f ∧ Succeeds f).length) := by
  induction files with
  | nil => intro c; exact ⟨by simp, fun _ => ⟨c, rfl, by simp, by simp⟩⟩
  | cons f files ih =>
    intro c
    obtain ⟨name, script⟩ := f
    rw [Suite.loop]
    by_cases ht : IsTestFile (name, script)
    · rw [if_pos (isTest_iff.mpr ht)]
      cases hr : (runGraph script Graph.memNew).1 with
      | panic =>
        refine ⟨fun _ => rfl, fun hn => absurd ⟨_, List.mem_cons_self, ht, hr⟩ hn⟩
      | ok v =>
        have hs : Succeeds (name, script) := ⟨v, hr⟩
        have hnc : ¬ Crashes (name, script) := by intro h; rw [Crashes, hr] at h; cases h
        obtain ⟨h1, h2⟩ := ih ⟨c.total + 1, c.failed⟩
        constructor
        · rintro ⟨f, hf, hft, hfc⟩
          rw [List.mem_cons] at hf
          rcases hf with rfl | hf
          · exact absurd hfc hnc
          · exact h1 ⟨f, hf, hft, hfc⟩
        · intro hn
          obtain ⟨c', h3, h4, h5⟩ := h2 (by rintro ⟨f, hf, h⟩; exact hn ⟨f, List.mem_cons_of_mem _ hf, h⟩)
          refine ⟨c', h3, ?_, ?_⟩
          · rw [h4, List.filter_cons, if_pos (by simpa using ht), List.length_cons]; simp only; omega
          · rw [h5, List.filter_cons, if_pos (by simpa using ⟨ht, hs⟩), List.length_cons]; simp only; omega
      | err m =>
        have hs : ¬ Succeeds (name, script) := by rintro ⟨v, h⟩; rw [hr] at h; cases h
        have hnc : ¬ Crashes (name, script) := by intro h; rw [Crashes, hr] at h; cases h
        obtain ⟨h1, h2⟩ := ih ⟨c.total + 1, c.failed + 1⟩
        constructor
        · rintro ⟨f, hf, hft, hfc⟩
          rw [List.mem_cons] at hf
          rcases hf with rfl | hf
          · exact absurd hfc hnc
          · exact h1 ⟨f, hf, hft, hfc⟩
        · intro hn
          obtain ⟨c', h3, h4, h5⟩ := h2 (by rintro ⟨f, hf, h⟩; exact hn ⟨f, List.mem_cons_of_mem _ hf, h⟩)
          refine ⟨c', h3, ?_, ?_⟩
          · rw [h4, List.filter_cons, if_pos (by simpa using ht), List.length_cons]; simp only; omega
          · rw [h5, List.filter_cons, if_neg (by simp [hs])]; simp only; omega
    · rw [if_neg (by rw [isTest_iff]; exact ht)]
      obtain ⟨h1, h2⟩ := ih c
      constructor
      · rintro ⟨f, hf, hft, hfc⟩
        rw [List.mem_cons] at hf
        rcases hf with rfl | hf
        · exact absurd hft ht
        · exact h1 ⟨f, hf, hft, hfc⟩
      · intro hn
        obtain ⟨c', h3, h4, h5⟩ := h2 (by rintro ⟨f, hf, h⟩; exact hn ⟨f, List.mem_cons_of_mem _ hf, h⟩)
        refine ⟨c', h3, ?_, ?_⟩
        · rw [h4, List.filter_cons, if_neg (by simpa using ht)]
        · rw [h5, List.filter_cons, if_neg (by simp [ht])]

/-- C54: if no test script panics, the last line reports how many of the `.wander` files ran without error, out of how many there are;
files of other names do not count. -/
theorem C54_counts (files : List (Str × Str)) (h : ¬ ∃ f ∈ files, IsTestFile f ∧ Crashes f) :
    Suite.main files = some (((files.filter fun f => IsTestFile f ∧ Succeeds f).length : Int), ((files.filter fun f => IsTestFile f).length : Int)) := by
  obtain ⟨c', h1, h2, h3⟩ := (suite_loop files ⟨0, 0⟩).2 h
  rw [Suite.main, h1]
  simp only [Option.some.injEq, Prod.mk.injEq]
  exact ⟨by rw [h3]; simp, by rw [h2]; simp⟩

/-- `C54_counts` applies to a directory with a passing test, a failing test and another file. -/
example := C54_counts [(lit "a.wander", lit "assert-equal {} {}"), (lit "notes.txt", lit "("), (lit "b.wander", lit "nope")] (by
  intro ⟨f, hf, _, hc⟩
  simp only [List.mem_cons, List.not_mem_nil, or_false] at hf
  rcases hf with rfl | rfl | rfl
  · have : (runGraph (lit "assert-equal {} {}") Graph.memNew).1 ≠ .panic := by decide +kernel
    exact this hc
  · rename_i ht
    obtain ⟨stem, hs⟩ := ht
    have h := isTest_iff.mpr ⟨stem, hs⟩
    exact absurd h (by decide +kernel)
  · have : (runGraph (lit "nope") Graph.memNew).1 ≠ .panic := by decide +kernel
    exact this hc)

/-- C54: a panic in a test script stops the runner before any count is printed. -/
theorem C54_crash (files : List (Str × Str)) : Suite.main files = none ↔ ∃ f ∈ files, IsTestFile f ∧ Crashes f := by
  constructor
  · intro h
    apply Classical.byContradiction
    intro hn
    rw [C54_counts files hn] at h
    cases h
  · intro h; rw [Suite.main, (suite_loop files ⟨0, 0⟩).1 h]

/-- C54: the order of the directory listing does not matter, and the number completed is between zero and the total. -/
theorem C54_order (files files' : List (Str × Str)) (h : files.Perm files') : Suite.main files = Suite.main files' := by
  by_cases hc : ∃ f ∈ files, IsTestFile f ∧ Crashes f
  · rw [(C54_crash files).mpr hc, (C54_crash files').mpr]
    obtain ⟨f, hf, h1⟩ := hc
    exact ⟨f, h.mem_iff.mp hf, h1⟩
  · rw [C54_counts files hc, C54_counts files' (by rintro ⟨f, hf, h1⟩; exact hc ⟨f, h.mem_iff.mpr hf, h1⟩),
      (h.filter _).length_eq, (h.filter _).length_eq]

/-- `C54_order` applies to two listings of a directory. -/
example := C54_order [(lit "a.wander", lit "docs"), (lit "b.wander", lit "nope")] [(lit "b.wander", lit "nope"), (lit "a.wander", lit "docs")] (.swap _ _ _)

theorem C54_bounds (files : List (Str × Str)) (done total : Int) (h : Suite.main files = some (done, total)) : 0 ≤ done ∧ done ≤ total := by
  have hc : ¬ ∃ f ∈ files, IsTestFile f ∧ Crashes f := by rw [← C54_crash, h]; exact nofun
  rw [C54_counts files hc] at h
  simp only [Option.some.injEq, Prod.mk.injEq] at h
  obtain ⟨rfl, rfl⟩ := h
  have : (files.filter fun f => IsTestFile f ∧ Succeeds f).length ≤ (files.filter fun f => IsTestFile f).length := by
    rw [← List.countP_eq_length_filter, ← List.countP_eq_length_filter]
    apply List.countP_mono_left
    intro f _ hf
    simp at hf ⊢
    exact hf.1
  omega

def sampleFiles : List (Str × Str) :=
  [(lit "a.wander", lit "assert-equal {} {}"), (lit "notes.txt", lit "("), (lit "b.wander", lit "nope"), (lit ".wander", lit "")]

example : (¬ ∃ f ∈ sampleFiles, IsTestFile f ∧ Crashes f) ∧ Suite.main sampleFiles = some (2, 3) ∧
    Suite.main ((lit "c.wander", lit "read") :: sampleFiles) = none := by
  refine ⟨?_, by decide +kernel, by decide +kernel⟩
  rw [← C54_crash]; decide +kernel

/-! ## C55 -/

theorem tableAfter_snoc (h : List Redb.IdType) (k : Redb.IdType) : tableAfter (h ++ [k]) = (Redb.nextId k (tableAfter h)).2 := by
  simp [tableAfter]

theorem idTypeStr_inj {a b : Redb.IdType} (h : Redb.idTypeStr a = Redb.idTypeStr b) : a = b := by
  cases a <;> cases b <;> first | rfl | (exfalso; revert h; decide)

theorem callsOf_snoc (k k' : Redb.IdType) (h : List Redb.IdType) : callsOf k (h ++ [k']) = callsOf k h + if k' = k then 1 else 0 := by
  simp only [callsOf, List.filter_append, List.length_append, List.filter_cons, List.filter_nil]
  by_cases e : k' = k <;> simp [e]

theorem table_get (h : List Redb.IdType) (k : Redb.IdType) : (tableAfter h).get? (Redb.idTypeStr k) =
    if callsOf k h = 0 then none else some (min (callsOf k h) (2 ^ 64) - 1) := by
  have key : ∀ n (h : List Redb.IdType), h.length = n → ∀ k, (tableAfter h).get? (Redb.idTypeStr k) =
      if callsOf k h = 0 then none else some (min (callsOf k h) (2 ^ 64) - 1) := by
    intro n
    induction n with
    | zero =>
      intro h hl k
      rw [List.length_eq_zero_iff] at hl
      subst hl
      rfl
    | succ n ih =>
      intro h hl k
      have hne : h ≠ [] := by rintro rfl; cases hl
      obtain ⟨h, k', rfl⟩ : ∃ rs q, h = rs ++ [q] := ⟨_, _, (List.dropLast_concat_getLast hne).symm⟩
      rw [tableAfter_snoc, callsOf_snoc]
      have ih := ih h (by simpa using hl)
      have hk' := ih k'
      by_cases e : k' = k
      · subst e
        simp only [if_true]
        rw [Redb.nextId]
        by_cases hz : callsOf k' h = 0
        · rw [if_pos hz] at hk'
          simp only [hk', BMap.get?_insert_self, hz]
          simp
        · rw [if_neg hz] at hk'
          simp only [hk']
          by_cases hlt : min (callsOf k' h) (2 ^ 64) - 1 + 1 < 2 ^ 64
          · rw [if_pos hlt]
            simp only [BMap.get?_insert_self]
            rw [if_neg (by omega)]
            congr 1
            omega
          · rw [if_neg hlt]
            simp only [hk']
            rw [if_neg (by omega)]
            congr 1
            omega
      · rw [if_neg e]
        have hne : Redb.idTypeStr k ≠ Redb.idTypeStr k' := fun h => e (idTypeStr_inj h).symm
        have : (Redb.nextId k' (tableAfter h)).2.get? (Redb.idTypeStr k) = (tableAfter h).get? (Redb.idTypeStr k) := by
          rw [Redb.nextId]
          cases (tableAfter h).get? (Redb.idTypeStr k') with
          | none => simp only [BMap.get?_insert_ne _ _ hne]
          | some v =>
            simp only
            split
            · simp only [BMap.get?_insert_ne _ _ hne]
            · rfl
        rw [this, ih k]
        simp
  exact key _ h rfl k

/-- C55: after any calls for any kinds, a call returns the number of earlier calls for its kind, until the counter is exhausted. -/
theorem C55_counts_up (h : List Redb.IdType) (k : Redb.IdType) :
    (Redb.nextId k (tableAfter h)).1 = if callsOf k h < 2 ^ 64 then .ok (callsOf k h) else .panic := by
  rw [Redb.nextId, table_get]
  by_cases hz : callsOf k h = 0
  · rw [if_pos hz]; simp [hz]
  · rw [if_neg hz]
    simp only
    by_cases hlt : callsOf k h < 2 ^ 64
    · rw [if_pos hlt, if_pos (by omega)]
      simp only [Res.ok.injEq]
      omega
    · rw [if_neg hlt, if_neg (by omega)]

/-- C55: no identifier of a kind is returned twice. -/
theorem C55_fresh (h h' : List Redb.IdType) (k : Redb.IdType) (i j : Nat)
    (h1 : (Redb.nextId k (tableAfter h)).1 = .ok i) (h2 : (Redb.nextId k (tableAfter (h ++ k :: h'))).1 = .ok j) : i < j := by
  rw [C55_counts_up] at h1 h2
  split at h1
  · split at h2
    · cases h1; cases h2
      simp [callsOf, List.filter_append]
    · cases h2
  · cases h1

example : (Redb.nextId .strings (tableAfter [.strings, .datasets, .strings, .identifiers])).1 = .ok 2 ∧
    callsOf .datasets [.strings, .datasets] = 1 := by decide +kernel

end Props
end Verif

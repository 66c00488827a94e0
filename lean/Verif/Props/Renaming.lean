import Verif.Proofs.Rename
import Verif.Props.Joining
/-!
# Names carry no meaning: C67
-/
namespace Verif
namespace Props
open Spec Eval Ren

/-- C67: on in-memory stores where the second shows the renamed contents of the first, the renamed calls have the renamed outcome
(errors for errors, panics for panics, the renamed value for a value), and the stores stay related. -/
theorem C67_calls (f : Str → Str) (hf : RenamesFor (common (σ := Mem)) f) (calls : List Call) (s t : Mem) (h : RenamedView f Mem.ops s t) :
    ResRen (renValue f) (runCalls Graph.memOps common calls s).1 (runCalls Graph.memOps common (calls.map (renCall f)) t).1 ∧
    RenamedView f Mem.ops (runCalls Graph.memOps common calls s).2 (runCalls Graph.memOps common (calls.map (renCall f)) t).2 := by
  have := runCallsLoop_ren (R := MemR f) (cmds := common) (cmds' := common) hf.toRenames (memLig hf.toRenames) (Ren.common_get hf) (Ren.common_docs hf) calls emptyNet s t
    ((memR_iff s t hf.inj).mpr h)
  rw [ren_empty] at this
  exact ⟨this.1, (memR_iff _ _ hf.inj).mp this.2⟩

/-- C67: so two scripts that mean the same calls up to the renaming behave the same up to the renaming. -/
theorem C67_scripts (f : Str → Str) (hf : RenamesFor (common (σ := Mem)) f) (script script' : Str) (calls : List Call)
    (h1 : Means script calls) (h2 : Means script' (calls.map (renCall f))) (s t : Mem) (h : RenamedView f Mem.ops s t) :
    ResRen (renValue f) (run Graph.memOps common script s).1 (run Graph.memOps common script' t).1 ∧
    RenamedView f Mem.ops (run Graph.memOps common script s).2 (run Graph.memOps common script' t).2 := by
  have key : ∀ script calls (s : Mem), Means script calls → run Graph.memOps common script s = runCalls Graph.memOps common calls s := by
    intro script calls s ⟨ts, h1, h2⟩
    rw [run, h1]
    simp only [Parser.program_parse h2]
  rw [key _ _ s h1, key _ _ t h2]
  exact C67_calls f hf calls s t h

/-- C67: reading and filtering through the graph interface. -/
theorem C67_queries (f : Str → Str) (hf : Renames f) (s t : Mem) (h : RenamedView f Mem.ops s t) (c : Element) (p : Entry) :
    ResRen (renNetwork f) (Graph.memOps.entries s c) (Graph.memOps.entries t (renElement f c)) ∧
    ResRen (renNetwork f) (Graph.memOps.filter s c p) (Graph.memOps.filter t (renElement f c) (renEntry f p)) := by
  rw [← memR_iff _ _ hf.inj] at h
  exact ⟨(memLig hf).entries s t c h, (memLig hf).filter s t c p h⟩

/-- C67: the same for the store itself, where the renaming may be any one-to-one map of texts: a renamed history has the same
acknowledgements and panics in the same places, and leaves the renamed contents. -/
theorem C67_store (f : Str → Str) (hi : ∀ x y, f x = f y → x = y) (l : List Op) (s t : Mem) (h : RenamedView f Mem.ops s t) :
    (runOps Mem.ops t (l.map (renOp f))).1 = (runOps Mem.ops s l).1.map (fun e => (renOp f e.1, e.2)) ∧
    RenamedView f Mem.ops (runOps Mem.ops s l).2 (runOps Mem.ops t (l.map (renOp f))).2 := by
  rw [← memR_iff _ _ hi] at h ⊢
  induction l generalizing s t with
  | nil => exact ⟨rfl, h⟩
  | cons op l ih =>
    obtain ⟨h1, h2⟩ := mem_exec hi h op
    obtain ⟨h3, h4⟩ := ih _ _ h2
    refine ⟨?_, h4⟩
    simp only [runOps, List.map_cons] at h3 ⊢
    rw [h3, h1]

/-- The renaming that swaps two texts. -/
def swapText (a b x : Str) : Str := if x = a then b else if x = b then a else x

theorem swap_inj {a b x y : Str} (h : swapText a b x = swapText a b y) : x = y := by
  unfold swapText at h
  split at h <;> split at h <;> grind

theorem swap_fix {a b x : Str} (h1 : x ≠ a) (h2 : x ≠ b) : swapText a b x = x := by
  rw [swapText, if_neg h1, if_neg h2]

/-- Swapping two texts that are no variables, no reserved texts and no texts of the command table is such a renaming. -/
theorem swap_renames (a b : Str) (ha : ∀ r ∈ [lit ":", lit "¬:", lit "?", lit "docString"], r ≠ a ∧ r ≠ b) (hv : ¬ IsVar a ∧ ¬ IsVar b)
    (hc : ∀ p ∈ common (σ := Mem), (p.1 ≠ a ∧ p.1 ≠ b) ∧ p.2.doc ≠ a ∧ p.2.doc ≠ b) : RenamesFor (common (σ := Mem)) (swapText a b) where
  inj _ _ := swap_inj
  colon := swap_fix (ha _ (by simp)).1 (ha _ (by simp)).2
  notColon := swap_fix (ha _ (by simp)).1 (ha _ (by simp)).2
  any := swap_fix (ha _ (by simp)).1 (ha _ (by simp)).2
  docString := swap_fix (ha _ (by simp)).1 (ha _ (by simp)).2
  var x := by
    unfold swapText
    split
    · rename_i h; subst h; simp [hv.1, hv.2]
    · split
      · rename_i h; subst h; simp [hv.1, hv.2]
      · rfl
  name p hp := swap_fix (hc p hp).1.1 (hc p hp).1.2
  doc p hp := swap_fix (hc p hp).2.1 (hc p hp).2.2

theorem swapAB : RenamesFor (common (σ := Mem)) (swapText (lit "alice") (lit "bob")) := by
  refine swap_renames _ _ ?_ ?_ ?_
  · decide +kernel
  · constructor <;> (rintro ⟨c, cs, e⟩; simp only [List.cons.injEq, show lit "alice" = ['a', 'l', 'i', 'c', 'e'] from rfl,
      show lit "bob" = ['b', 'o', 'b'] from rfl] at e; exact absurd e.1 (by decide))
  · have : ∀ p ∈ (common (σ := Mem)).map (fun p => (p.1, p.2.doc)), (p.1 ≠ lit "alice" ∧ p.1 ≠ lit "bob") ∧ p.2 ≠ lit "alice" ∧ p.2 ≠ lit "bob" := by
      decide +kernel
    intro p hp
    exact this _ (List.mem_map_of_mem hp)

/-- Two stores of which the second is the first with the two names swapped, and a script with its renamed version. -/
example : RenamedView (swapText (lit "alice") (lit "bob")) Mem.ops
      ⟨(∅ : BMap Str (BSet Trip)).insert (lit "alice") (BSet.ofList [⟨lit "bob", lit "knows", lit "carol"⟩])⟩
      ⟨(∅ : BMap Str (BSet Trip)).insert (lit "bob") (BSet.ofList [⟨lit "alice", lit "knows", lit "carol"⟩])⟩ ∧
    Means (lit "let x {alice : bob}, filter alice bob ? ?")
      [call "let" [.element (.of (lit "x")), .network (BSet.ofList [.ext (.of (lit "alice")) (.of (lit "bob"))])],
       call "filter" [.element (.of (lit "alice")), .element (.of (lit "bob")), .element (.of (lit "?")), .element (.of (lit "?"))]] ∧
    Means (lit "let x {bob : alice}, filter bob alice ? ?")
      ([call "let" [.element (.of (lit "x")), .network (BSet.ofList [.ext (.of (lit "alice")) (.of (lit "bob"))])],
       call "filter" [.element (.of (lit "alice")), .element (.of (lit "bob")), .element (.of (lit "?")), .element (.of (lit "?"))]].map
        (renCall (swapText (lit "alice") (lit "bob")))) := by
  refine ⟨?_, ?_, ?_⟩
  · have h := memR_insert (f := swapText (lit "alice") (lit "bob")) (fun _ _ => swap_inj) (s := ⟨∅⟩) (t := ⟨∅⟩) ⟨fun _ => rfl, fun _ _ => rfl⟩
      (lit "alice") (BSet.ofList [⟨lit "bob", lit "knows", lit "carol"⟩])
    exact (memR_iff _ _ (fun _ _ => swap_inj)).mp h
  · exact means_of (ts := [.element (.of (lit "let")), .element (.of (lit "x")), .openBrace, .element (.of (lit "alice")), .element (.of (lit ":")),
      .element (.of (lit "bob")), .closeBrace, .comma, .element (.of (lit "filter")), .element (.of (lit "alice")), .element (.of (lit "bob")),
      .element (.of (lit "?")), .element (.of (lit "?"))]) (by decide +kernel) (by decide +kernel)
  · exact means_of (ts := [.element (.of (lit "let")), .element (.of (lit "x")), .openBrace, .element (.of (lit "bob")), .element (.of (lit ":")),
      .element (.of (lit "alice")), .closeBrace, .comma, .element (.of (lit "filter")), .element (.of (lit "bob")), .element (.of (lit "alice")),
      .element (.of (lit "?")), .element (.of (lit "?"))]) (by decide +kernel) (by decide +kernel)

theorem err_of {r : Res Value} (h : (match r with | .err _ => true | _ => false) = true) : ∃ m, r = .err m := by
  cases r with
  | err m => exact ⟨m, rfl⟩
  | ok v => cases h
  | panic => cases h

/-- C67: the reserved texts do carry meaning: exchanging the role `:` with another text changes an outcome. -/
theorem C67_reserved_matter : ∃ calls : List Call, ∃ f : Str → Str, (∀ x y, f x = f y → x = y) ∧
    (runCalls Graph.memOps common calls Mem.new).1 = .ok emptyNet ∧
    ∃ m, (runCalls Graph.memOps common (calls.map (renCall f)) Mem.new).1 = .err m := by
  refine ⟨[call "let" [.element (.of (lit "x")), .network (BSet.ofList [.role (.of (lit "a")) (.of (lit "b")) (.of (lit "is"))])],
    call "assert-equal" [.quote [.element (.of (lit "read")), .element (.of (lit "x"))],
      .network (BSet.ofList [.role (.of (lit "a")) (.of (lit "b")) (.of (lit "is"))])]],
    swapText (lit "is") (lit ":"), fun _ _ => swap_inj, by decide +kernel, ?_⟩
  exact err_of (by decide +kernel)

end Props
end Verif

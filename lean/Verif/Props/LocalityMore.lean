import Verif.Props.ScriptsShared
/-!
# C62: what a script depends on, over the persistent stores
-/
namespace Verif
namespace Props
open Spec Eval Steps

theorem trips_of_entries {a b : Res (BSet Trip)} (h : a.map (·.map Graph.tripToEntry) = b.map (·.map Graph.tripToEntry)) : a = b := by
  cases a <;> cases b <;> simp only [Res.map, Res.ok.injEq, Res.err.injEq, reduceCtorEq] at h
  · rename_i A B
    congr 1
    apply BSet.ext; intro x
    have hx : Graph.tripToEntry x ∈ A.map Graph.tripToEntry ↔ Graph.tripToEntry x ∈ B.map Graph.tripToEntry := by rw [h]
    simp only [BSet.mem_map] at hx
    constructor
    · intro hA
      obtain ⟨y, hy, e⟩ := hx.mp ⟨x, hA, rfl⟩
      rw [← Graph.tripToEntry_inj e]; exact hy
    · intro hB
      obtain ⟨y, hy, e⟩ := hx.mpr ⟨x, hB, rfl⟩
      rw [← Graph.tripToEntry_inj e]; exact hy
  · rw [h]
  · rfl

/-- C62, DuckDB store: two stores with any pasts that show the same under the names the calls use give the same result, and show the same under
those names afterwards. -/
theorem C62_depends_duck (l l' : List Op) (calls : List Call) :
    let s := (runOps Duck.ops Duck.new l).2
    let t := (runOps Duck.ops Duck.new l').2
    (∀ c ∈ calls, ∀ n : Element, CallUses n c → (Listed Duck.ops s n.text ↔ Listed Duck.ops t n.text) ∧
      (Graph.ops Duck.ops).entries s n = (Graph.ops Duck.ops).entries t n) →
    let r := runCalls (Graph.ops Duck.ops) common calls s
    let r' := runCalls (Graph.ops Duck.ops) common calls t
    r.1 = r'.1 ∧ ∀ c ∈ calls, ∀ n : Element, CallUses n c → (Listed Duck.ops r.2 n.text ↔ Listed Duck.ops r'.2 n.text) ∧
      (Graph.ops Duck.ops).entries r.2 n = (Graph.ops Duck.ops).entries r'.2 n := by
  intro s t hst
  exact depends_of duck_refines duck_local calls (duck_inv l) (duck_inv l') hst

/-- C62, LMDB store: likewise, for legal names and as long as identifiers do not run out.  What the stores went through before (rows left behind by removed
collections, the numbers of identifiers) makes no difference. -/
theorem C62_depends_heed (l l' : List Op) (calls : List Call)
    (hk : ∀ c ∈ calls, ∀ n : Element, CallUses n c → Heed.lmdbKey n.text = true) :
    let s := (runOps Heed.ops Heed.new l).2
    let t := (runOps Heed.ops Heed.new l').2
    costOf l + progCost (Graph.ops Heed.ops) (callsP calls) s ≤ 2 ^ 64 → costOf l' + progCost (Graph.ops Heed.ops) (callsP calls) s ≤ 2 ^ 64 →
    (∀ c ∈ calls, ∀ n : Element, CallUses n c → (Listed Heed.ops s n.text ↔ Listed Heed.ops t n.text) ∧
      (Graph.ops Heed.ops).entries s n = (Graph.ops Heed.ops).entries t n) →
    let r := runCalls (Graph.ops Heed.ops) common calls s
    let r' := runCalls (Graph.ops Heed.ops) common calls t
    r.1 = r'.1 ∧ ∀ c ∈ calls, ∀ n : Element, CallUses n c → (Listed Heed.ops r.2 n.text ↔ Listed Heed.ops r'.2 n.text) ∧
      (Graph.ops Heed.ops).entries r.2 n = (Graph.ops Heed.ops).entries r'.2 n := by
  intro s t hc hc' hst r r'
  have room : ∀ l : List Op, costOf l + progCost (Graph.ops Heed.ops) (callsP calls) s ≤ 2 ^ 64 →
      Heed.Good (runOps Heed.ops Heed.new l).2 ∧
        Heed.Room (runOps Heed.ops Heed.new l).2 (progCost (Graph.ops Heed.ops) (callsP calls) s + 0) := by
    intro l h
    refine ⟨Heed.good_runOps l _ Heed.good_new, Heed.room_runOps l _ _ Heed.good_new ?_⟩
    show Heed.used Heed.new + _ ≤ _
    rw [show Heed.used Heed.new = 0 from rfl]
    omega
  have h := prog_same heed_isolates (N := CallsUse calls) (fun x ⟨c, h, n, hn, e⟩ => e ▸ hk c h n hn) (callsP calls) (usesOnly_callsP calls)
    (room l hc) (room l' hc') (by
      rintro x ⟨c, hcm, n, hn, rfl⟩
      obtain ⟨h1, h2⟩ := hst c hcm n hn
      exact world_of_views heed_refines (room l hc).1 (room l' hc').1 n.text h1 (trips_of_entries h2))
  simp only [run_callsP] at h
  obtain ⟨h1, -, h3, h4, h5⟩ := h
  refine ⟨h1, fun c hcm n hn => ?_⟩
  obtain ⟨e1, e2⟩ := shows_same heed_isolates h3 h4 n (h5 n.text ⟨c, hcm, n, hn, rfl⟩)
  exact ⟨e2, e1⟩

/-- Two LMDB stores that both hold an empty collection `G`, one of them new and one after storing a triple in `H` and in an earlier `G`. -/
def shortPast : List Op := [.addCollection (lit "G")]
def longPast : List Op := [.addCollection (lit "H"), .addTriples (lit "H") (BSet.ofList [⟨lit "a", lit "b", lit "c"⟩]), .addCollection (lit "G"),
  .addTriples (lit "G") (BSet.ofList [⟨lit "a", lit "b", lit "c"⟩]), .removeCollection (lit "G"), .addCollection (lit "G")]

example : (∀ c ∈ useG, ∀ n : Element, CallUses n c → Heed.lmdbKey n.text = true) ∧
    costOf shortPast + progCost (Graph.ops Heed.ops) (callsP useG) (runOps Heed.ops Heed.new shortPast).2 ≤ 2 ^ 64 ∧
    costOf longPast + progCost (Graph.ops Heed.ops) (callsP useG) (runOps Heed.ops Heed.new shortPast).2 ≤ 2 ^ 64 ∧
    (∀ c ∈ useG, ∀ n : Element, CallUses n c →
      (Listed Heed.ops (runOps Heed.ops Heed.new shortPast).2 n.text ↔ Listed Heed.ops (runOps Heed.ops Heed.new longPast).2 n.text) ∧
      (Graph.ops Heed.ops).entries (runOps Heed.ops Heed.new shortPast).2 n = (Graph.ops Heed.ops).entries (runOps Heed.ops Heed.new longPast).2 n) ∧
    (runOps Heed.ops Heed.new shortPast).2.ctr ≠ (runOps Heed.ops Heed.new longPast).2.ctr ∧
    (runOps Heed.ops Heed.new shortPast).2.cfst ≠ (runOps Heed.ops Heed.new longPast).2.cfst := by
  refine ⟨fun c hc n hn => by rw [useG_names c hc n hn]; decide +kernel, by decide +kernel, by decide +kernel, fun c hc n hn => ?_,
    by decide +kernel, by decide +kernel⟩
  have e := useG_names c hc n hn
  refine ⟨?_, ?_⟩
  · rw [e]
    exact ⟨fun _ => ⟨[lit "G", lit "H"], by decide +kernel, by simp⟩, fun _ => ⟨[lit "G"], by decide +kernel, by simp⟩⟩
  · show ((Heed.ops.triples _ n.text).map _) = ((Heed.ops.triples _ n.text).map _)
    rw [e]
    exact congrArg (Res.map _) (by decide +kernel)

end Props
end Verif

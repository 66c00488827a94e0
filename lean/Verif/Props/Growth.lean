import Verif.Spec.Growth
import Verif.Props.Provenance
import Verif.Props.Apps
import Verif.Props.Copy
import Verif.Props.Snapshot
/-!
# C99: how much scripts can add to a store
-/
namespace Verif
namespace Props
open Spec Eval

namespace Growth

/-- The second value of a call, if both are words. -/
def headName : List Value → List Str
  | .element _ :: .element n :: _ => [n.text]
  | _ => []

mutual
def letsOf : Value → List Str
  | .quote vs => headName vs ++ letsOfAll vs
  | .element _ => []
  | .network _ => []
def letsOfAll : List Value → List Str
  | [] => []
  | v :: vs => letsOf v ++ letsOfAll vs
end

mutual
def writtenOf : Value → List Entry
  | .network n => n.toList
  | .element _ => []
  | .quote vs => writtenOfAll vs
def writtenOfAll : List Value → List Entry
  | [] => []
  | v :: vs => writtenOf v ++ writtenOfAll vs
end

mutual
def weight : Value → Nat
  | .element _ => 1
  | .network n => 4 * n.toList.length
  | .quote vs => 1 + weightAll vs
def weightAll : List Value → Nat
  | [] => 0
  | v :: vs => weight v + weightAll vs
end

def words : List Value → Nat
  | [] => 0
  | .element _ :: vs => 1 + words vs
  | _ :: vs => words vs

theorem headName_le (vs : List Value) : 2 * (headName vs).length ≤ words vs := by
  unfold headName
  split
  · simp only [List.length_singleton, words]; omega
  · simp

mutual
theorem weight_bound : ∀ v : Value, 2 * (letsOf v).length + 4 * (writtenOf v).length + words [v] ≤ weight v
  | .element _ => by simp [letsOf, writtenOf, weight, words]
  | .network n => by simp [letsOf, writtenOf, weight, words]
  | .quote vs => by
    have h1 := headName_le vs
    have h2 := weightAll_bound vs
    simp only [letsOf, writtenOf, weight, words, List.length_append]
    omega
theorem weightAll_bound : ∀ vs : List Value, 2 * (letsOfAll vs).length + 4 * (writtenOfAll vs).length + words vs ≤ weightAll vs
  | [] => by simp [letsOfAll, writtenOfAll, weightAll, words]
  | v :: vs => by
    have h1 := weight_bound v
    have h2 := weightAll_bound vs
    have h3 : words (v :: vs) = words [v] + words vs := by cases v <;> simp [words]
    simp only [letsOfAll, writtenOfAll, weightAll, List.length_append]
    omega
end

mutual
theorem letsOf_of {name : Element} : ∀ v : Value, LetsIn name v → name.text ∈ letsOf v
  | .element _, h => by simp [LetsIn] at h
  | .network _, h => by simp [LetsIn] at h
  | .quote vs, h => by
    simp only [LetsIn] at h
    simp only [letsOf, List.mem_append]
    rcases h with ⟨e, rest, rfl, _⟩ | h
    · exact .inl (by simp [headName])
    · exact .inr (letsOfAll_of vs h)
theorem letsOfAll_of {name : Element} : ∀ vs : List Value, LetsInList name vs → name.text ∈ letsOfAll vs
  | [], h => by simp [LetsInList] at h
  | v :: vs, h => by
    simp only [LetsInList] at h
    simp only [letsOfAll, List.mem_append]
    exact h.imp (letsOf_of v) (letsOfAll_of vs)
end

mutual
theorem writtenOf_of {e : Entry} : ∀ v : Value, WrittenIn e v → e ∈ writtenOf v
  | .element _, h => by simp [WrittenIn] at h
  | .network n, h => by simp only [WrittenIn] at h; exact h
  | .quote vs, h => by
    simp only [WrittenIn] at h
    exact writtenOfAll_of vs h
theorem writtenOfAll_of {e : Entry} : ∀ vs : List Value, WrittenInAny e vs → e ∈ writtenOfAll vs
  | [], h => by simp [WrittenInAny] at h
  | v :: vs, h => by
    simp only [WrittenInAny] at h
    simp only [writtenOfAll, List.mem_append]
    exact h.imp (writtenOf_of v) (writtenOfAll_of vs)
end

theorem entries_length {ts : List Token} {es : List Entry} (h : Entries ts es) : 4 * es.length ≤ ts.length := by
  induction h with
  | close => simp
  | last _ => simp
  | more _ _ ih => simp only [List.length_cons]; omega

theorem network_length {ts : List Token} {n : Network} (h : NetworkLit ts n) : 4 * n.toList.length ≤ ts.length := by
  obtain ⟨body, es, rfl, h1, h2⟩ := h
  have := entries_length h1
  have h3 : n.toList.length ≤ es.length := length_le_of_nodup n.nodup (fun e he => (h2 e).mp he)
  simp only [List.length_cons]; omega

theorem items_weight {ts : List Token} {vs : List Value} (h : Items ts vs) : weightAll vs ≤ ts.length := by
  induction h with
  | close => simp [weightAll]
  | element _ ih => simp only [weightAll, weight, List.length_cons]; omega
  | network hn _ ih =>
    have := network_length hn
    simp only [weightAll, weight, List.length_append]; omega

theorem values_weight {ts : List Token} {vs : List Value} (h : Values ts vs) : weightAll vs ≤ ts.length := by
  induction h with
  | nil => simp [weightAll]
  | @cons ts v us vs hv hvs ih =>
    have : weight v ≤ ts.length := by
      cases hv with
      | element e => simp [weight]
      | string s => simp [weight]
      | network h => exact network_length h
      | quote h =>
        have := items_weight h
        simp only [weight, List.length_cons]; omega
    simp only [weightAll, List.length_append]; omega

/-- The names the calls can create collections under. -/
def names (calls : List Call) : List Str := calls.flatMap fun c => letsOf (.quote (.element c.name :: c.args))

/-- The entries written in the calls. -/
def written (calls : List Call) : List Entry := calls.flatMap fun c => writtenOf (.quote (.element c.name :: c.args))

theorem call_weight {ts : List Token} {c : Call} (h : CallLit ts c) :
    2 * (letsOf (.quote (.element c.name :: c.args))).length + 4 * (writtenOf (.quote (.element c.name :: c.args))).length ≤ ts.length := by
  have h1 := values_weight h
  have h2 := headName_le (.element c.name :: c.args)
  have h3 := weightAll_bound (.element c.name :: c.args)
  simp only [letsOf, writtenOf, List.length_append]
  omega

theorem program_weight {ts : List Token} {cs : List Call} (h : Program ts cs) :
    2 * (names cs).length + 4 * (written cs).length ≤ ts.length := by
  induction h with
  | nil => simp [names, written]
  | last hc =>
    have := call_weight hc
    simpa [names, written] using this
  | more hc _ ih =>
    have := call_weight hc
    simp only [names, written, List.flatMap_cons, List.length_append, List.length_cons] at *
    omega

theorem names_of {calls : List Call} {name : Element} {c : Call} (hc : c ∈ calls) (h : CallLets name c) : name.text ∈ names calls := by
  refine List.mem_flatMap.mpr ⟨c, hc, ?_⟩
  simp only [letsOf, letsOfAll, List.mem_append]
  rcases h with ⟨_, rest, h⟩ | h
  · exact .inl (by simp [headName, h])
  · exact .inr (.inr (letsOfAll_of _ h))

theorem written_of {calls : List Call} {e : Entry} (h : Written calls e) : e ∈ written calls := by
  obtain ⟨c, hc, h⟩ := h
  refine List.mem_flatMap.mpr ⟨c, hc, ?_⟩
  simp only [writtenOf, writtenOfAll, List.mem_append]
  exact .inr (writtenOfAll_of _ h)

/-- The entries of the documentation. -/
def docList : List Entry := [
    ("assert-equal", "Check if two arguments are equal (quotes are evaluated before comparing) and fail if they are not equal."),
    ("assert-fail", "Accept a quote and run it. If the quote results in a failure continue otherwise fail."),
    ("ignore", "Ignore all arguments to this command and return an empty network."),
    ("let", "Set a named network."), ("read", "Read a network."), ("id", "Return a value."),
    ("docs", "Get a list of commands and a description."), ("union", "Combine two networks."), ("filter", "Filter a network.")].map
      fun p => .role (.of (lit p.1)) (.of (lit p.2)) (.of (lit "docString"))

theorem docList_of {e : Entry} (h : DocEntry e) : e ∈ docList := by
  obtain ⟨p, hp, rfl⟩ := h
  exact List.mem_map.mpr ⟨p, hp, rfl⟩

theorem docList_canon : ∀ e ∈ docList, canon e = e := by decide +kernel

theorem held_canon {T : TripsOps τ} {s : τ} {e : Entry} (h : HeldIn (Graph.ops T) s e) : canon e = e := by
  obtain ⟨c, n, h, he⟩ := h
  have h' : (T.triples s c.text).map (fun ts => ts.map Graph.tripToEntry) = .ok n := h
  cases ht : T.triples s c.text with
  | ok ts =>
    rw [ht] at h'
    injection h' with h'
    subst h'
    obtain ⟨t, _, rfl⟩ := BSet.mem_map.mp he
    rw [Graph.canon_eq, Graph.entryToTrip_tripToEntry]
  | err m => rw [ht] at h'; cases h'
  | panic => rw [ht] at h'; cases h'

mutual
theorem within_of {e : Entry} : ∀ v : Value, WrittenIn e v → ∃ n, Spec.Within (.network n) v ∧ e ∈ n
  | .element _, h => by simp [WrittenIn] at h
  | .network n, h => by simp only [WrittenIn] at h; exact ⟨n, .self _, h⟩
  | .quote vs, h => by
    simp only [WrittenIn] at h
    obtain ⟨v, hv, n, h1, h2⟩ := within_any vs h
    exact ⟨n, .quote hv h1, h2⟩
theorem within_any {e : Entry} : ∀ vs : List Value, WrittenInAny e vs → ∃ v ∈ vs, ∃ n, Spec.Within (.network n) v ∧ e ∈ n
  | [], h => by simp [WrittenInAny] at h
  | v :: vs, h => by
    simp only [WrittenInAny] at h
    rcases h with h | h
    · exact ⟨v, List.mem_cons_self, within_of v h⟩
    · obtain ⟨w, hw, h⟩ := within_any vs h
      exact ⟨w, List.mem_cons_of_mem _ hw, h⟩
end

/-- What can be new after a script. -/
def Adds (T : TripsOps τ) (s s' : τ) (n : Nat) : Prop :=
  ∃ (L : List Str) (W : List Entry), 2 * L.length + 4 * W.length ≤ n ∧ (∀ c, Listed T s' c → Listed T s c ∨ c ∈ L) ∧
    ∀ e, HeldIn (Graph.ops T) s' e → HeldIn (Graph.ops T) s e ∨ e ∈ W ∨ e ∈ docList

theorem adds_refl (T : TripsOps τ) (s : τ) (n : Nat) : Adds T s s n := ⟨[], [], by simp, fun _ h => .inl h, fun _ h => .inl h⟩

theorem adds_trans {T : TripsOps τ} {s s' s'' : τ} {n m : Nat} (h : Adds T s s' n) (h' : Adds T s' s'' m) : Adds T s s'' (n + m) := by
  obtain ⟨L, W, a1, a2, a3⟩ := h
  obtain ⟨L', W', b1, b2, b3⟩ := h'
  refine ⟨L ++ L', W ++ W', by simp only [List.length_append]; omega, fun c hc => ?_, fun e he => ?_⟩
  · rcases b2 c hc with h | h
    · rcases a2 c h with h | h
      · exact .inl h
      · exact .inr (List.mem_append_left _ h)
    · exact .inr (List.mem_append_right _ h)
  · rcases b3 e he with h | h | h
    · rcases a3 e h with h | h | h
      · exact .inl h
      · exact .inr (.inl (List.mem_append_left _ h))
      · exact .inr (.inr h)
    · exact .inr (.inl (List.mem_append_right _ h))
    · exact .inr (.inr h)

section
variable {T : TripsOps τ} {I : τ → Prop} {b : Bool} {world : τ → World} {P : Op → Prop}

theorem script_adds (R : Refines T I b world P) (C : Conserves T I) {s : τ} (hs : I s) (script : Str) :
    I (run (Graph.ops T) common script s).2 ∧ Adds T s (run (Graph.ops T) common script s).2 script.length := by
  have none : (run (Graph.ops T) common script s).2 = s →
      I (run (Graph.ops T) common script s).2 ∧ Adds T s (run (Graph.ops T) common script s).2 script.length := by
    intro h; rw [h]; exact ⟨hs, adds_refl _ _ _⟩
  cases ht : Lexer.tokenizeAndFilter script with
  | err m => exact none (by simp only [run, ht])
  | panic => exact none (by simp only [run, ht])
  | ok tokens =>
    cases hp : Parser.parse tokens with
    | err m => exact none (by simp only [run, ht, hp])
    | panic => exact none (by simp only [run, ht, hp])
    | ok calls =>
      have e : run (Graph.ops T) common script s = runCalls (Graph.ops T) common calls s := by simp only [run, ht, hp]
      rw [e]
      refine ⟨?_, names calls, written calls, ?_, fun c hc => ?_, fun x hx => ?_⟩
      · exact inv_after R hs calls
      · obtain ⟨⟨raw, hr, rfl⟩, _⟩ := C05_filtered script tokens ht
        have a := program_weight ((C06_exact _ _).mp hp)
        have b := tokenized_length ((C02_longest_match _ _).mp hr)
        have c : (raw.filterMap kept).length ≤ raw.length := List.length_filterMap_le ..
        omega
      · by_cases hl : c ∈ names calls
        · exact .inr hl
        · refine .inl ((frame_of R hs calls (.of c) fun d hd name hn e => hl ?_).2.mp hc)
          have := names_of hd hn
          rwa [e] at this
      · obtain ⟨y, hy, hxy⟩ := (traceable_alone C hs calls).1 x hx
        have hself : canon y = y → x = y := by
          intro h; rcases hxy with rfl | rfl
          · rfl
          · exact h
        rcases hy with hy | ⟨cs, hcs, hy⟩
        · rw [hself (held_canon hy)]; exact .inl hy
        · rw [List.mem_singleton] at hcs
          subst hcs
          rcases hy with hy | ⟨_, hy⟩
          · have hc : canon y = y := by
              obtain ⟨c, hc, hw⟩ := hy
              obtain ⟨v, hv, n, hn, hyn⟩ := within_any _ hw
              exact (C17_script_values script tokens cs ht hp c hc v (.network n) (.inr hv) hn).2 n rfl y hyn
            rw [hself hc]; exact .inr (.inl (written_of hy))
          · have := docList_of hy
            rw [hself (docList_canon _ this)]; exact .inr (.inr this)

/-- What `Adds` says, counted. -/
theorem counted (R : Refines T I b world P) {s s' : τ} (hs : I s) (hs' : I s') {n : Nat} (h : Adds T s s' n) : GrewBy T s s' n := by
  obtain ⟨L, W, h1, h2, h3⟩ := h
  refine ⟨L.length, W.length, h1, ?_, fun known hk c => ?_⟩
  · obtain ⟨⟨l, a1, _, _⟩, _⟩ := R.agrees _ hs
    obtain ⟨⟨l', b1, b2, _⟩, _⟩ := R.agrees _ hs'
    simp only [listedCount, a1, b1]
    rw [← List.length_append]
    refine length_le_of_nodup b2 fun c hc => ?_
    rcases h2 c ⟨l', b1, hc⟩ with ⟨m, hm, h⟩ | h
    · rw [a1] at hm; cases hm; exact List.mem_append_left _ h
    · exact List.mem_append_right _ h
  · simp only [sizeIn]
    cases ht : T.triples s' c with
    | err m => exact Nat.zero_le _
    | panic => exact Nat.zero_le _
    | ok ts =>
      have hnd : (ts.toList.map Graph.tripToEntry).Nodup := by
        refine Heed.nodup_map_on ts.nodup fun x _ y _ h => ?_
        have := congrArg Graph.entryToTrip h
        rwa [Graph.entryToTrip_tripToEntry, Graph.entryToTrip_tripToEntry] at this
      have := length_le_of_nodup (m := known.toList ++ W ++ docList) hnd fun e he => by
        obtain ⟨t, ht', rfl⟩ := List.mem_map.mp he
        have hheld : HeldIn (Graph.ops T) s' (Graph.tripToEntry t) :=
          ⟨.of c, ts.map Graph.tripToEntry, by show (T.triples s' c).map _ = _; rw [ht]; rfl, BSet.mem_map.mpr ⟨t, ht', rfl⟩⟩
        simp only [List.mem_append]
        rcases h3 _ hheld with h | h | h
        · exact .inl (.inl (hk _ h))
        · exact .inl (.inr h)
        · exact .inr h
      simpa [docList, Nat.add_assoc] using this

theorem scripts_add (R : Refines T I b world P) (C : Conserves T I) : ∀ (scripts : List Str) {s : τ}, I s →
    I (afterScripts (Graph.ops T) scripts s) ∧ Adds T s (afterScripts (Graph.ops T) scripts s) (totalLength scripts)
  | [], s, hs => ⟨hs, adds_refl _ _ _⟩
  | q :: scripts, s, hs => by
    obtain ⟨h1, h2⟩ := script_adds R C hs q
    obtain ⟨h3, h4⟩ := scripts_add R C scripts h1
    exact ⟨h3, adds_trans h2 h4⟩

theorem scripts_grow (R : Refines T I b world P) (C : Conserves T I) (scripts : List Str) {s : τ} (hs : I s) :
    GrewBy T s (afterScripts (Graph.ops T) scripts s) (totalLength scripts) :=
  counted R hs (scripts_add R C scripts hs).1 (scripts_add R C scripts hs).2

theorem script_grows (R : Refines T I b world P) (C : Conserves T I) (script : Str) {s : τ} (hs : I s) :
    GrewBy T s (run (Graph.ops T) common script s).2 script.length :=
  counted R hs (script_adds R C hs script).1 (script_adds R C hs script).2

theorem sum_le {α : Type u} (f : α → Nat) (b : Nat) : ∀ l : List α, (∀ x ∈ l, f x ≤ b) → (l.map f).sum ≤ l.length * b
  | [], _ => by simp
  | a :: l, h => by
    have h1 := h a List.mem_cons_self
    have h2 := sum_le f b l fun x hx => h x (List.mem_cons_of_mem _ hx)
    simp only [List.map_cons, List.sum_cons, List.length_cons, Nat.succ_mul]
    omega

theorem product_le {k d n : Nat} (h : 2 * k + 4 * d ≤ n) : 32 * (k * (d + 9)) ≤ (n + 36) * (n + 36) := by
  obtain ⟨m, rfl⟩ : ∃ m, n = 2 * k + 4 * d + m := ⟨n - (2 * k + 4 * d), by omega⟩
  have : 32 * (k * (d + 9)) ≤ (2 * k + (4 * d + 36)) * (2 * k + (4 * d + 36)) := by
    have e : 4 * ((2 * k) * (4 * d + 36)) ≤ (2 * k + (4 * d + 36)) * (2 * k + (4 * d + 36)) := by
      generalize 2 * k = a
      generalize 4 * d + 36 = b
      have h1 : (a + b) * (a + b) = a * a + b * b + 2 * (a * b) := by grind
      have h2 : 2 * (a * b) ≤ a * a + b * b := by
        rcases Nat.le_total a b with h | h
        · obtain ⟨x, rfl⟩ := Nat.exists_eq_add_of_le h
          have : a * a + (a + x) * (a + x) = 2 * (a * (a + x)) + x * x := by grind
          omega
        · obtain ⟨x, rfl⟩ := Nat.exists_eq_add_of_le h
          have : (b + x) * (b + x) + b * b = 2 * ((b + x) * b) + x * x := by grind
          omega
      have h3 : 4 * (a * b) = 2 * (a * b) + 2 * (a * b) := by omega
      omega
    have : 4 * ((2 * k) * (4 * d + 36)) = 32 * (k * (d + 9)) := by grind
    omega
  exact Nat.le_trans this (Nat.mul_le_mul (by omega) (by omega))

theorem bounds (R : Refines T I b world P) {s s' : τ} (hs : I s) (hs' : I s') (h0 : T.collections s = .ok [])
    (hn : ∀ e, ¬ HeldIn (Graph.ops T) s e) {N : Nat} (h : Adds T s s' N) :
    2 * listedCount T s' ≤ N ∧ (∀ c, 4 * sizeIn T s' c ≤ N + 36) ∧ 32 * shown T s' ≤ (N + 36) * (N + 36) := by
  obtain ⟨K, D, h1, h2, h3⟩ := counted R hs hs' h
  have h4 := h3 ∅ fun e he => absurd he (hn e)
  simp only [BSet.toList_empty, List.length_nil, Nat.zero_add] at h4
  have h2 : listedCount T s' ≤ K := by
    have : listedCount T s = 0 := by simp [listedCount, h0]
    omega
  refine ⟨by omega, fun c => ?_, ?_⟩
  · have := h4 c; omega
  · refine Nat.le_trans ?_ (product_le h1)
    refine Nat.mul_le_mul_left 32 ?_
    simp only [listedCount] at h2
    simp only [shown]
    cases hc : T.collections s' with
    | err m => exact Nat.zero_le _
    | panic => exact Nat.zero_le _
    | ok l =>
      rw [hc] at h2
      exact Nat.le_trans (sum_le _ (D + 9) l fun c _ => h4 c) (Nat.mul_le_mul_right _ h2)

theorem traffic (R : Refines T I b world P) (C : Conserves T I) (scripts : List Str) {s : τ} (hs : I s)
    (h0 : T.collections s = .ok []) (hn : ∀ e, ¬ HeldIn (Graph.ops T) s e) :
    2 * listedCount T (afterScripts (Graph.ops T) scripts s) ≤ totalLength scripts ∧
    (∀ c, 4 * sizeIn T (afterScripts (Graph.ops T) scripts s) c ≤ totalLength scripts + 36) ∧
    32 * shown T (afterScripts (Graph.ops T) scripts s) ≤ (totalLength scripts + 36) * (totalLength scripts + 36) :=
  bounds R hs (scripts_add R C scripts hs).1 h0 hn (scripts_add R C scripts hs).2

end
end Growth

/-- C99: over each of the three stores, in every reachable state, a script of `n` characters adds at most `K` collections and at most `D + 9`
entries to any collection that were not stored before, with `2 * K + 4 * D ≤ n`, however it ends. -/
theorem C99_script (l : List Op) (script : Str) :
    (let s := (runOps Mem.ops Mem.new l).2
     GrewBy Mem.ops s (run (Graph.ops Mem.ops) common script s).2 script.length) ∧
    (let s := (runOps Heed.ops Heed.new l).2
     GrewBy Heed.ops s (run (Graph.ops Heed.ops) common script s).2 script.length) ∧
    (let s := (runOps Duck.ops Duck.new l).2
     GrewBy Duck.ops s (run (Graph.ops Duck.ops) common script s).2 script.length) :=
  ⟨Growth.script_grows mem_refines mem_conserves script trivial, Growth.script_grows heed_refines heed_conserves script (heed_good l),
    Growth.script_grows duck_refines duck_conserves script (duck_inv l)⟩

/-- C99: scripts of `N` characters together, run one after the other on a new store of any of the three kinds: at most `N / 2` collections,
at most `(N + 36) / 4` entries in each, at most `(N + 36)² / 32` in all. -/
theorem C99_scripts (scripts : List Str) :
    (let s := afterScripts (Graph.ops Mem.ops) scripts Mem.new
     let N := totalLength scripts
     2 * listedCount Mem.ops s ≤ N ∧ (∀ c, 4 * sizeIn Mem.ops s c ≤ N + 36) ∧ 32 * shown Mem.ops s ≤ (N + 36) * (N + 36)) ∧
    (let s := afterScripts (Graph.ops Heed.ops) scripts Heed.new
     let N := totalLength scripts
     2 * listedCount Heed.ops s ≤ N ∧ (∀ c, 4 * sizeIn Heed.ops s c ≤ N + 36) ∧ 32 * shown Heed.ops s ≤ (N + 36) * (N + 36)) ∧
    (let s := afterScripts (Graph.ops Duck.ops) scripts Duck.new
     let N := totalLength scripts
     2 * listedCount Duck.ops s ≤ N ∧ (∀ c, 4 * sizeIn Duck.ops s c ≤ N + 36) ∧ 32 * shown Duck.ops s ≤ (N + 36) * (N + 36)) := by
  refine ⟨Growth.traffic mem_refines mem_conserves scripts trivial rfl ?_, Growth.traffic heed_refines heed_conserves scripts (heed_good []) rfl ?_,
    Growth.traffic duck_refines duck_conserves scripts (duck_inv []) rfl ?_⟩
  · rintro e ⟨c, n, h, _⟩; cases h
  · rintro e ⟨c, n, h, _⟩
    rw [show (Graph.ops Heed.ops).entries Heed.new c = (Heed.ops.triples Heed.new c.text).map _ from rfl,
      show Heed.ops.triples Heed.new c.text = _ from Heed.triples_missing Heed.good_new (by rw [show Heed.world Heed.new _ = _ from Heed.worldOf_new]; rfl)] at h
    cases h
  · rintro e ⟨c, n, h, he⟩
    cases h
    simp at he

/-- One script that writes 20 entries, 19 that copy them: 373 characters, 400 entries. -/
def copies : List Str :=
  (lit "let a{" ++ (("bcdefghijklmnopqrstu".toList.map fun x => lit "a a " ++ [x]).intersperse (lit ",")).flatten ++ lit "}") ::
    "bcdefghijklmnopqrst".toList.map fun x => lit "let " ++ [x] ++ lit "(read a)"

/-- More entries than characters: the total is not bounded by the traffic, only by its square. -/
example : totalLength copies = 373 ∧ shown Mem.ops (afterScripts (Graph.ops Mem.ops) copies Mem.new) = 400 := by decide +kernel

namespace Growth

theorem served_adds (reqs : List (Option Str)) (sv : Zmq.Server) :
    Adds Mem.ops sv.store (reqs.foldl Zmq.step sv).store (totalLength (reqs.filterMap id)) := by
  induction reqs generalizing sv with
  | nil => exact adds_refl _ _ _
  | cons q reqs ih =>
    have ih := ih (Zmq.step sv q)
    cases q with
    | none =>
      have : (Zmq.step sv none).store = sv.store := by simp only [Zmq.step]; split <;> rfl
      rw [this] at ih
      exact ih
    | some q =>
      refine adds_trans (n := q.length) ?_ ih
      cases hd : sv.dead with
      | true => rw [show Zmq.step sv (some q) = sv by simp only [Zmq.step, hd, if_true]]; exact adds_refl _ _ _
      | false =>
        rw [(zmq_step hd q).1]
        exact (script_adds mem_refines mem_conserves trivial q).2

end Growth

/-- C99: the ØMQ server, after requests of `N` characters together (requests that are not UTF-8 counted as empty), alive or dead. -/
theorem C99_server (reqs : List (Option Str)) :
    let s := (Zmq.serve reqs).store
    let N := totalLength (reqs.filterMap id)
    2 * listedCount Mem.ops s ≤ N ∧ (∀ c, 4 * sizeIn Mem.ops s c ≤ N + 36) ∧ 32 * shown Mem.ops s ≤ (N + 36) * (N + 36) :=
  Growth.bounds mem_refines trivial trivial rfl (by rintro e ⟨c, n, h, _⟩; cases h) (Growth.served_adds reqs .new)

end Props
end Verif

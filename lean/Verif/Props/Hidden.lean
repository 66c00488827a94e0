import Verif.Spec.Hidden
import Verif.Props.Reach
/-!
# C102: what no session finds out
-/
namespace Verif
namespace Props
open Spec Eval

namespace Hidden
open Apart

/-- The length of the collection name an argument list begins with. -/
def headLen : List Value → Nat
  | .element n :: _ => n.text.length
  | _ => 0

theorem names_headLen {n e : Element} {args : List Value} (h : NamesCollection n e args) : n.text.length ≤ headLen args := by
  obtain ⟨_, rest, rfl⟩ := h
  exact Nat.le_refl _

mutual
theorem uses_bound : ∀ v : Value, ∃ B, ∀ n, UsesIn n v → n.text.length ≤ B
  | .element _ => ⟨0, fun _ h => by cases h⟩
  | .network _ => ⟨0, fun _ h => by cases h⟩
  | .quote vs => by
    obtain ⟨B, hB⟩ := usesList_bound vs
    refine ⟨headLen vs.tail + B, fun n h => ?_⟩
    rcases h with ⟨e, args, rfl, h⟩ | h
    · have := names_headLen h
      simp only [List.tail_cons]
      omega
    · have := hB n h
      omega
theorem usesList_bound : ∀ vs : List Value, ∃ B, ∀ n, UsesInList n vs → n.text.length ≤ B
  | [] => ⟨0, fun _ h => by cases h⟩
  | v :: vs => by
    obtain ⟨A, hA⟩ := uses_bound v
    obtain ⟨B, hB⟩ := usesList_bound vs
    refine ⟨A + B, fun n h => ?_⟩
    rcases h with h | h
    · have := hA n h; omega
    · have := hB n h; omega
end

theorem calls_bound : ∀ calls : List Call, ∃ B, ∀ c ∈ calls, ∀ n : Element, CallUses n c → n.text.length ≤ B
  | [] => ⟨0, nofun⟩
  | c :: calls => by
    obtain ⟨A, hA⟩ := usesList_bound c.args
    obtain ⟨B, hB⟩ := calls_bound calls
    refine ⟨headLen c.args + A + B, fun c' hc n h => ?_⟩
    rcases List.mem_cons.mp hc with rfl | hc
    · rcases h with h | h
      · have := names_headLen h; omega
      · have := hA n h; omega
    · have := hB c' hc n h; omega

/-- Names longer than so much are not used by the script. -/
theorem script_bound (script : Str) : ∃ B, ∀ calls, Means script calls → ∀ c ∈ calls, ∀ n : Element, CallUses n c → n.text.length ≤ B := by
  by_cases hm : ∃ calls, Means script calls
  · obtain ⟨calls, hm⟩ := hm
    obtain ⟨B, hB⟩ := calls_bound calls
    refine ⟨B, fun calls' hm' => ?_⟩
    obtain ⟨ts, ht, hp⟩ := hm
    obtain ⟨ts', ht', hp'⟩ := hm'
    cases ht.symm.trans ht'
    cases (Parser.parse_ok_iff.mpr hp).symm.trans (Parser.parse_ok_iff.mpr hp')
    exact hB
  · exact ⟨0, fun calls h => absurd ⟨calls, h⟩ hm⟩

section
variable {T : TripsOps τ} {I : τ → Prop} {b : Bool} {world : τ → World}

/-- A script that does not use `d`, on stores that differ in `d` at most. -/
theorem run_same (R : Refines T I b world (fun _ => True)) (Lc : LocalStore T I world) {s t : τ} (hs : I s) (ht : I t) {d : Str} (h : SameBut T d s t)
    (script : Str) (hd : ∀ calls, Means script calls → ∀ c ∈ calls, ∀ n : Element, CallUses n c → n.text ≠ d) :
    (run (Graph.ops T) common script s).1 = (run (Graph.ops T) common script t).1 ∧
    SameBut T d (run (Graph.ops T) common script s).2 (run (Graph.ops T) common script t).2 ∧
    (Listed T (run (Graph.ops T) common script s).2 d ↔ Listed T s d) ∧ (Listed T (run (Graph.ops T) common script t).2 d ↔ Listed T t d) := by
  have htrip : ∀ {a b : Res (BSet Trip)}, a.map (·.map Graph.tripToEntry) = b.map (·.map Graph.tripToEntry) → a = b := by
    intro a b h
    have h := congrArg (Res.map (fun n : Network => n.map Graph.entryToTrip)) h
    cases a <;> cases b <;> simp only [Res.map, map_back] at h <;> first | assumption | rfl
  by_cases hm : ∃ calls, Means script calls
  · obtain ⟨calls, hm⟩ := hm
    have hd := hd calls hm
    rw [run_means _ _ hm, run_means _ _ hm]
    obtain ⟨h1, h2⟩ := depends_of R Lc calls hs ht fun c hc n hn => ⟨(h n.text (hd c hc n hn)).1, congrArg (Res.map _) (h n.text (hd c hc n hn)).2⟩
    refine ⟨h1, fun e he => ?_, ?_, ?_⟩
    · by_cases hu : ∃ c ∈ calls, ∃ n : Element, CallUses n c ∧ n.text = e
      · obtain ⟨c, hc, n, hn, rfl⟩ := hu
        have := h2 c hc n hn
        exact ⟨this.1, htrip this.2⟩
      · have hf : ∀ c ∈ calls, ∀ name : Element, CallLets name c → name.text ≠ (Element.of e).text :=
          fun c hc name hl e' => hu ⟨c, hc, name, callUses_of_lets hl, e'⟩
        obtain ⟨a1, a2⟩ := frame_of R hs calls (.of e) hf
        obtain ⟨b1, b2⟩ := frame_of R ht calls (.of e) hf
        obtain ⟨c1, c2⟩ := h e he
        exact ⟨a2.trans (c1.trans b2.symm), (htrip a1).trans (c2.trans (htrip b1).symm)⟩
    · exact (frame_of R hs calls (.of d) fun c hc name hl => hd c hc name (callUses_of_lets hl)).2
    · exact (frame_of R ht calls (.of d) fun c hc name hl => hd c hc name (callUses_of_lets hl)).2
  · refine ⟨run_no_calls_same _ hm s t, ?_⟩
    rw [(run_no_calls _ hm s).1, (run_no_calls _ hm t).1]
    exact ⟨h, Iff.rfl, Iff.rfl⟩

theorem askAll_inv (R : Refines T I b world (fun _ => True)) (ask : List (Res Value) → Str) : ∀ (n : Nat) {s : τ}, I s → I (askAll (Graph.ops T) ask n s).2
  | 0, _, hs => hs
  | n + 1, _, hs => inv_run R (askAll_inv R ask n hs) _

/-- However long a name has to be, a session uses only shorter ones from some length on, and then a store that differs only in a longer one cannot be told. -/
theorem session_same (R : Refines T I b world (fun _ => True)) (Lc : LocalStore T I world) (ask : List (Res Value) → Str) {s : τ} (hs : I s) : ∀ n : Nat,
    ∃ B, ∀ d : Str, B < d.length → ∀ t, I t → SameBut T d s t →
      (askAll (Graph.ops T) ask n s).1 = (askAll (Graph.ops T) ask n t).1 ∧
      SameBut T d (askAll (Graph.ops T) ask n s).2 (askAll (Graph.ops T) ask n t).2 ∧
      (Listed T (askAll (Graph.ops T) ask n s).2 d ↔ Listed T s d) ∧ (Listed T (askAll (Graph.ops T) ask n t).2 d ↔ Listed T t d)
  | 0 => ⟨0, fun _ _ _ _ h => ⟨rfl, h, Iff.rfl, Iff.rfl⟩⟩
  | n + 1 => by
    obtain ⟨A, hA⟩ := session_same R Lc ask hs n
    obtain ⟨B, hB⟩ := script_bound (ask (askAll (Graph.ops T) ask n s).1)
    refine ⟨A + B, fun d hd t ht h => ?_⟩
    obtain ⟨h1, h2, h3, h4⟩ := hA d (by omega) t ht h
    obtain ⟨k1, k2, k3, k4⟩ := run_same R Lc (askAll_inv R ask n hs) (askAll_inv R ask n ht) h2 (ask (askAll (Graph.ops T) ask n s).1)
      (fun calls hm c hc m hn e => by
        have := hB calls hm c hc m hn
        rw [e] at this
        omega)
    simp only [askAll]
    rw [← h1]
    exact ⟨by rw [k1], k2, k3.trans h3, k4.trans h4⟩

theorem fresh (R : Refines T I b world (fun _ => True)) {s : τ} (hs : I s) (B : Nat) : ∃ d : Str, StringBody d ∧ B < d.length ∧ ¬ Listed T s d := by
  obtain ⟨⟨l, h1, _, _⟩, _⟩ := R.agrees s hs
  have : ∀ l : List Str, ∃ C, ∀ x ∈ l, x.length ≤ C := by
    intro l
    induction l with
    | nil => exact ⟨0, nofun⟩
    | cons x l ih =>
      obtain ⟨C, hC⟩ := ih
      refine ⟨x.length + C, fun y hy => ?_⟩
      rcases List.mem_cons.mp hy with rfl | hy
      · omega
      · have := hC y hy; omega
  obtain ⟨C, hC⟩ := this l
  refine ⟨List.replicate (B + C + 1) 'a', ?_, ?_, ?_⟩
  · refine plain_stringBody fun x hx => ?_
    rw [List.eq_of_mem_replicate hx]
    unfold Special; decide
  · rw [List.length_replicate]; omega
  · rintro ⟨l', e1, e2⟩
    rw [h1] at e1; cases e1
    have := hC _ e2
    rw [List.length_replicate] at this
    omega

end

theorem sameBut_mem (s : Mem) (d : Str) : SameBut Mem.ops d s (exec Mem.ops s (.addCollection d)).2 := fun c hc =>
  have h := mem_refines.isolated (s := s) trivial (.addCollection d) c hc
  ⟨h.2.symm, h.1.symm⟩

theorem listed_mem (s : Mem) (d : Str) : Listed Mem.ops (exec Mem.ops s (.addCollection d)).2 d := by
  rw [mem_listed]
  simp [exec, Mem.ops, Mem.addCollection]

theorem sameBut_duck (l : List Op) (d : Str) :
    SameBut Duck.ops d (runOps Duck.ops Duck.new l).2 (runOps Duck.ops Duck.new (l ++ [.addCollection d])).2 := by
  rw [Spec.runOps_append]
  intro c hc
  have h := C33_duck l (.addCollection d) c hc
  exact ⟨h.2.symm, h.1.symm⟩

theorem listed_duck (l : List Op) {d : Str} (h : ¬ Listed Duck.ops (runOps Duck.ops Duck.new l).2 d) :
    Listed Duck.ops (runOps Duck.ops Duck.new (l ++ [.addCollection d])).2 d := by
  have hi := duck_inv (l ++ [.addCollection d])
  revert hi
  rw [Spec.runOps_append]
  have hg := duck_inv l
  revert h hg
  generalize (runOps Duck.ops Duck.new l).2 = s
  intro h hg hi
  simp only [runOps] at hi ⊢
  rw [duck_listed hi]
  rw [duck_listed hg] at h
  obtain ⟨_, h2, h3⟩ := Duck.exec_spec hg (.addCollection d)
  have h0 : Duck.world s d = none := by cases e : Duck.world s d <;> simp_all
  simp only [h0] at h3
  rw [h2]
  simp [applyEvent, apply, h0, h3, World.set]

/-! ### The LMDB store -/

theorem all_strings : ∀ n : Nat, ∃ names : List Str, ∀ c : Str, c.length ≤ n → c ∈ names
  | 0 => ⟨[[]], fun c h => by
    cases c with
    | nil => exact List.mem_singleton.mpr rfl
    | cons x c => simp at h⟩
  | n + 1 => by
    obtain ⟨names, h⟩ := all_strings n
    refine ⟨[] :: ((List.range 0x110000).map Char.ofNat).flatMap fun x => names.map (x :: ·), fun c hc => ?_⟩
    cases c with
    | nil => exact List.mem_cons_self ..
    | cons x c =>
      refine List.mem_cons_of_mem _ (List.mem_flatMap.mpr ⟨x, List.mem_map.mpr ⟨x.toNat, List.mem_range.mpr ?_, Char.ofNat_toNat x⟩, ?_⟩)
      · rcases x.valid with h | h
        · exact Nat.lt_trans h (by decide)
        · exact h.2
      · exact List.mem_map_of_mem (h c (by simp at hc; omega))

theorem length_le_utf8 (c : Str) : c.length ≤ (c.map Char.utf8Size).sum := by
  induction c with
  | nil => exact Nat.le_refl _
  | cons x c ih =>
    have := Char.utf8Size_pos x
    simp only [List.length_cons, List.map_cons, List.sum_cons]
    omega

theorem read_script {c : Str} (hc : StringBody c) : ∃ script, Means script [call "read" [.element (.of c)]] :=
  (C92_scripts [call "read" [.element (.of c)]]).mpr (by
    intro x hx
    rw [List.mem_singleton] at hx
    subst hx
    refine ⟨sayable_of (plain_stringBody (by unfold Special; decide)), fun v hv => ?_⟩
    simp only [call, List.mem_singleton] at hv
    subst hv
    exact sayable_of hc)

/-- What `read` answers. -/
def readAnswer : Res Network → Res Value
  | .ok n => .ok (.network n)
  | .err m => .err (lit "Error " ++ m)
  | .panic => .panic

theorem readAnswer_inj {a b : Res Network} (h : readAnswer a = readAnswer b) : a = b := by
  cases a <;> cases b <;> simp_all [readAnswer]

/-- A script that reads the collection with a name that can be written, and has no calls otherwise. -/
theorem reader (c : Str) : ∃ script : Str, ∀ {σ : Type} (L : LigOps σ), (∀ s, (run L common script s).2 = s) ∧
    (StringBody c → ∀ s, (run L common script s).1 = readAnswer (L.entries s (.of c))) ∧
    (¬ StringBody c → ∀ s t, (run L common script s).1 = (run L common script t).1) := by
  by_cases hc : StringBody c
  · obtain ⟨script, hm⟩ := read_script hc
    have e : ∀ {σ : Type} (L : LigOps σ) (u : σ), runCalls L common [call "read" [.element (.of c)]] u =
        (readAnswer (L.entries u (.of c)), u) := by
      intro σ L u
      rw [common_read]
      simp only [Eval.read]
      cases L.entries u (.of c) <;> rfl
    refine ⟨script, fun L => ⟨fun s => ?_, fun _ s => ?_, fun h => absurd hc h⟩⟩
    · rw [run_means _ _ hm, e]
    · rw [run_means _ _ hm, e]
  · exact ⟨[], fun L => ⟨fun s => rfl, fun h => absurd h hc, fun _ s t => rfl⟩⟩

theorem askAll_fixed {L : LigOps σ} (script : Nat → Str) (h : ∀ i s, (run L common (script i) s).2 = s) (s : σ) : ∀ n : Nat,
    askAll L (fun before => script before.length) n s = ((List.range n).map fun i => (run L common (script i) s).1, s)
  | 0 => rfl
  | n + 1 => by
    simp only [askAll, askAll_fixed script h s n, List.length_map, List.length_range, List.range_succ, List.map_append, List.map_cons, List.map_nil, h]

end Hidden
open Hidden Apart

/-- C102, in-memory store: for any session on any store, however its scripts are chosen from the earlier answers, there is a name that scripts can write, and
any other store that differs only in what it has under that name gives the same answers; there are such stores that have the collection, which the given one has
not, so a further script could tell. -/
theorem C102_mem (ask : List (Res Value) → Str) (n : Nat) (s : Mem) :
    ∃ d, StringBody d ∧ ¬ Listed Mem.ops s d ∧ (∃ t, SameBut Mem.ops d s t ∧ Listed Mem.ops t d) ∧ ∀ t : Mem, SameBut Mem.ops d s t →
      (askAll (Graph.ops Mem.ops) ask n s).1 = (askAll (Graph.ops Mem.ops) ask n t).1 ∧
      (Listed Mem.ops t d → ¬ Alike (Graph.ops Mem.ops) (askAll (Graph.ops Mem.ops) ask n s).2 (askAll (Graph.ops Mem.ops) ask n t).2) := by
  obtain ⟨B, hB⟩ := session_same mem_refines mem_local ask (s := s) trivial n
  obtain ⟨d, h1, h2, h3⟩ := fresh mem_refines (s := s) trivial B
  refine ⟨d, h1, h3, ⟨_, sameBut_mem s d, listed_mem s d⟩, fun t ht => ?_⟩
  obtain ⟨k1, _, k3, k4⟩ := hB d h2 t trivial ht
  exact ⟨k1, fun hl ha => h3 (k3.mp (((C100_stores_mem _ _).mp ha (.of d) h1).1.mpr (k4.mpr hl)))⟩

/-- C102, DuckDB store: the same in every reachable state. -/
theorem C102_duck (ask : List (Res Value) → Str) (n : Nat) (l : List Op) :
    let s := (runOps Duck.ops Duck.new l).2
    ∃ d, StringBody d ∧ ¬ Listed Duck.ops s d ∧
    (∃ l' : List Op, SameBut Duck.ops d s (runOps Duck.ops Duck.new l').2 ∧ Listed Duck.ops (runOps Duck.ops Duck.new l').2 d) ∧
    ∀ l' : List Op,
      let t := (runOps Duck.ops Duck.new l').2
      SameBut Duck.ops d s t →
      (askAll (Graph.ops Duck.ops) ask n s).1 = (askAll (Graph.ops Duck.ops) ask n t).1 ∧
      (Listed Duck.ops t d → ¬ Alike (Graph.ops Duck.ops) (askAll (Graph.ops Duck.ops) ask n s).2 (askAll (Graph.ops Duck.ops) ask n t).2) := by
  intro s
  obtain ⟨B, hB⟩ := session_same duck_refines duck_local ask (duck_inv l) n
  obtain ⟨d, h1, h2, h3⟩ := fresh duck_refines (duck_inv l) B
  refine ⟨d, h1, h3, ⟨l ++ [.addCollection d], sameBut_duck l d, listed_duck l h3⟩, ?_⟩
  intro l' t ht
  obtain ⟨k1, _, k3, k4⟩ := hB d h2 t (duck_inv l') ht
  refine ⟨k1, fun hl ha => ?_⟩
  have := duck_agree (askAll_inv duck_refines ask n (duck_inv l)) (askAll_inv duck_refines ask n (duck_inv l')) ha
  exact h3 (k3.mp ((this (.of d) h1).1.mpr (k4.mpr hl)))

/-- C102, LMDB store: there names are bounded (at most 511 bytes), so the claim fails of what collections contain: one session of reads, which changes nothing, is
answered alike by two stores in reachable states exactly if they have the same entries under all names scripts can write. -/
theorem C102_heed : ∃ (ask : List (Res Value) → Str) (n : Nat), ∀ l l' : List Op,
    let s := (runOps Heed.ops Heed.new l).2
    let t := (runOps Heed.ops Heed.new l').2
    (askAll (Graph.ops Heed.ops) ask n s).2 = s ∧
    ((askAll (Graph.ops Heed.ops) ask n s).1 = (askAll (Graph.ops Heed.ops) ask n t).1 ↔
      ∀ c, SayableElement c → (Graph.ops Heed.ops).entries s c = (Graph.ops Heed.ops).entries t c) := by
  obtain ⟨names, hn⟩ := all_strings 511
  let script (i : Nat) : Str := (reader (names.getD i [])).choose
  have hr (i : Nat) := (reader (names.getD i [])).choose_spec (Graph.ops Heed.ops)
  have hf := askAll_fixed (L := Graph.ops Heed.ops) script fun i s => (hr i).1 s
  refine ⟨fun before => script before.length, names.length, fun l l' => ?_⟩
  intro s t
  rw [hf s, hf t]
  refine ⟨rfl, fun h c hc => ?_, fun h => ?_⟩
  · obtain ⟨h1, h2, h3⟩ := hc
    have e : c = .of c.text := by cases c; simp_all [Element.of]
    by_cases hk : Heed.lmdbKey c.text = true
    · have hk' : c.text.length ≤ 511 := by
        have := length_le_utf8 c.text
        simp only [Heed.lmdbKey, decide_eq_true_eq] at hk
        omega
      obtain ⟨i, hi, e'⟩ := List.getElem_of_mem (hn _ hk')
      have h := List.map_inj_left.mp h i (List.mem_range.mpr hi)
      have eg : names.getD i [] = c.text := by rw [List.getD_eq_getElem?_getD, List.getElem?_eq_getElem hi, Option.getD_some, e']
      have hr := hr i
      rw [show (reader (names.getD i [])).choose = script i from rfl] at hr
      rw [eg] at hr
      rw [hr.2.1 h3, hr.2.1 h3] at h
      rw [e]
      exact readAnswer_inj h
    · have w : ∀ l, Heed.worldOf (runOps Heed.ops Heed.new l).2 c.text = none := by
        intro l
        have hg := heed_good l
        cases e : Heed.worldOf (runOps Heed.ops Heed.new l).2 c.text with
        | none => rfl
        | some p =>
          simp only [Heed.worldOf, Heed.world, Option.map_eq_some_iff] at e
          obtain ⟨i, hi, _⟩ := e
          exact absurd (hg.c2i _ _ hi).2 hk
      exact congrArg (Res.map _) (heed_refines.missing s t c.text (heed_good l) (heed_good l') (w l) (w l'))
  · refine List.map_inj_left.mpr fun i _ => ?_
    by_cases hc : StringBody (names.getD i [])
    · rw [(hr i).2.1 hc, (hr i).2.1 hc, h _ (sayable_of hc)]
    · exact (hr i).2.2 hc s t

/-- A session that makes a collection when reading it failed and reads it again: on an empty in-memory store. -/
def hiddenAsk : List (Res Value) → Str
  | [] => lit "read T"
  | [.err _] => lit "let T {a r b}"
  | _ => lit "read T"

/-- `hiddenAsk` takes its second branch, and the store has something in the end: the session is a real one. -/
example : (askAll Graph.memOps hiddenAsk 3 Mem.new).1 = [.err (lit "Error Collection `T` not found."),
    (run Graph.memOps common (lit "let T {a r b}") Mem.new).1, .ok (.network (BSet.ofList [.role (.of (lit "a")) (.of (lit "b")) (.of (lit "r"))]))] ∧
    (run Graph.memOps common (lit "let T {a r b}") Mem.new).1.isOk := by
  decide +kernel

/-- `C102_mem` for it, and `C102_duck` on a store with a history. -/
example := C102_mem hiddenAsk 3 Mem.new
example := C102_duck hiddenAsk 3 [.addCollection (lit "S"), .addTriples (lit "S") (BSet.ofList [⟨lit "x", lit "r", lit "y"⟩])]

/-- The session of `C102_heed` tells a new store from one with a triple. -/
example : ∃ (ask : List (Res Value) → Str) (n : Nat), (askAll (Graph.ops Heed.ops) ask n Heed.new).1 ≠ (askAll (Graph.ops Heed.ops) ask n
    (runOps Heed.ops Heed.new [.addCollection (lit "S"), .addTriples (lit "S") (BSet.ofList [⟨lit "x", lit "r", lit "y"⟩])]).2).1 := by
  obtain ⟨ask, n, h⟩ := C102_heed
  refine ⟨ask, n, fun e => ?_⟩
  have h := ((h [] [.addCollection (lit "S"), .addTriples (lit "S") (BSet.ofList [⟨lit "x", lit "r", lit "y"⟩])]).2.mp e) (.of (lit "S"))
    ⟨rfl, rfl, plain_stringBody (by unfold Special; decide)⟩
  exact absurd h (by decide +kernel)

/-- The name has to depend on the session: for any one name that scripts can write there is a session of one script that finds it. -/
example : ¬ Listed Mem.ops Mem.new (lit "T") ∧ SameBut Mem.ops (lit "T") Mem.new (exec Mem.ops Mem.new (.addCollection (lit "T"))).2 ∧
    (askAll Graph.memOps hiddenAsk 1 Mem.new).1 ≠ (askAll Graph.memOps hiddenAsk 1 (exec Mem.ops Mem.new (.addCollection (lit "T"))).2).1 := by
  refine ⟨?_, Hidden.sameBut_mem _ _, by decide +kernel⟩
  rw [mem_listed]
  decide +kernel

end Props
end Verif

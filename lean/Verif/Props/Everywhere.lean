import Verif.Spec.Everywhere
import Verif.Props.WebPage
import Verif.Props.Suite
import Verif.Props.Screen
import Verif.Props.Messages
import Verif.Props.JoiningMany
/-!
# C98: one script in several applications
-/
namespace Verif
namespace Props
open Spec Lexer Parser
open Wasm (JsVal)

theorem one_request (script : Str) :
    (Zmq.serve [some script]).store = (runGraph script Graph.memNew).2 ∧
    match replyTo script Graph.memNew with
    | some r => (Zmq.serve [some script]).replies = [r] ∧ (Zmq.serve [some script]).dead = false
    | none => (Zmq.serve [some script]).replies = [] ∧ (Zmq.serve [some script]).dead = true := by
  have := zmq_step (sv := Zmq.Server.new) rfl script
  refine ⟨this.1, ?_⟩
  have h2 := this.2
  rw [show Zmq.Server.new.store = Graph.memNew from rfl, show Zmq.Server.new.replies = [] from rfl] at h2
  cases hr : replyTo script Graph.memNew with
  | none => rw [hr] at h2; exact h2
  | some r => rw [hr] at h2; exact h2

theorem isText_unique {v : JsVal} {a b : Str} (ha : IsText v a) (hb : IsText v b) : a = b := by
  obtain ⟨us, rfl, h⟩ := ha
  obtain ⟨_, h1, h'⟩ := hb
  cases h1
  exact spells_inj h h'

/-- C98: one script given to a new server, to the pad, to a web page and, as a file, to the test runner: one of them crashes exactly if all
do; else the server's reply is the pad's result; the page gets a Map exactly if the test passes, and gets a text exactly if it fails, the
text being the server's reply. -/
theorem C98_one_script (iter : BMap Str Wasm.Graphology → List (Str × Wasm.Graphology)) (hi : ∀ m, (iter m).Perm m.toList)
    (script name : Str) (hn : Suite.TestName name) :
    let server := Zmq.serve [some script]
    let pad := [Pad.Event.edit script, .run].foldl Pad.step .new
    let page := Wasm.runJs iter script
    let tests := Suite.main [(name, script)]
    (server.dead = true ↔ pad.crashed = true) ∧ (server.dead = true ↔ page = none) ∧ (server.dead = true ↔ tests = none) ∧
    (server.dead = false → server.replies = [pad.result]) ∧
    (tests = some (1, 1) ↔ ∃ es, page = some (.map es)) ∧
    (tests = some (0, 1) ↔ ∃ v m, page = some v ∧ IsText v m) ∧
    ∀ v m, page = some v → IsText v m → server.replies = [m] := by
  have ht : Suite.isTest name = true := isTest_iff.mpr hn
  have hs := one_request script
  have hp := C77_value iter hi script
  have hpad := C53_pad [] script rfl
  rw [show padAfter ([] ++ [.edit script, .run]) = [Pad.Event.edit script, .run].foldl Pad.step .new from rfl] at hpad
  generalize [Pad.Event.edit script, .run].foldl Pad.step .new = pad at hpad
  simp only [Suite.main, Suite.loop, ht, if_true]
  cases hr : runGraph script Graph.memNew with
  | mk r s =>
    rw [hr] at hp
    cases r with
    | ok v =>
      obtain ⟨es, h1, -⟩ := hp
      have hrep : replyTo script Graph.memNew = some (Display.value v) := by simp [replyTo, hr]
      have hcr : pad.crashed = false := by
        rw [← Bool.not_eq_true, hpad.1, hrep]; exact nofun
      have hres := hpad.2 _ hrep
      rw [hrep] at hs
      obtain ⟨-, h2, h3⟩ := hs
      simp only [h1, h2, h3, hcr, hres]
      refine ⟨by simp, by simp, by simp, by simp, by simp, ?_, ?_⟩
      · simp only [Option.some.injEq, Prod.mk.injEq]
        constructor
        · intro h; exact absurd h.1 (by decide)
        · rintro ⟨v, m, rfl, us, h, -⟩; cases h
      · rintro _ m h ⟨us, rfl, -⟩; cases h
    | err msg =>
      obtain ⟨v, h1, hv⟩ := hp
      have hrep : replyTo script Graph.memNew = some msg := by simp [replyTo, hr]
      have hcr : pad.crashed = false := by
        rw [← Bool.not_eq_true, hpad.1, hrep]; exact nofun
      have hres := hpad.2 _ hrep
      rw [hrep] at hs
      obtain ⟨-, h2, h3⟩ := hs
      simp only [h1, h2, h3, hcr, hres]
      refine ⟨by simp, by simp, by simp, by simp, ?_, ?_, ?_⟩
      · simp only [Option.some.injEq, Prod.mk.injEq]
        constructor
        · intro h; exact absurd h.1 (by decide)
        · rintro ⟨es, rfl⟩; obtain ⟨us, h, -⟩ := hv; cases h
      · simp only [Option.some.injEq]
        exact ⟨fun _ => ⟨v, msg, rfl, hv⟩, fun _ => by decide⟩
      · intro v' m h hm
        cases h
        rw [isText_unique hv hm]
    | panic =>
      have hrep : replyTo script Graph.memNew = none := by simp [replyTo, hr]
      have hcr : pad.crashed = true := hpad.1.mpr hrep
      rw [hrep] at hs
      obtain ⟨-, h2, h3⟩ := hs
      simp only at hp
      simp only [hp, h3, hcr]
      refine ⟨by simp, by simp, by simp, by simp, by simp, by simp, by simp⟩

/-- A script that succeeds, one that fails and one that panics; a name of a test. -/
example : Suite.TestName (lit "a.wander") ∧
    Suite.main [(lit "a.wander", lit "let x {a r b}, read x")] = some (1, 1) ∧ (Zmq.serve [some (lit "let x {a r b}, read x")]).replies = [lit "{\"a\" \"r\" \"b\"}"] ∧
    Suite.main [(lit "a.wander", lit "let x {a r b}, read y")] = some (0, 1) ∧
    (Zmq.serve [some (lit "let x {a r b}, read y")]).replies = [lit "Error Collection `y` not found."] ∧
    Suite.main [(lit "a.wander", lit "read")] = none ∧ (Zmq.serve [some (lit "read")]).dead = true :=
  ⟨⟨lit "a", rfl⟩, by decide +kernel, by decide +kernel, by decide +kernel, by decide +kernel, by decide +kernel, by decide +kernel⟩

theorem each_snoc {α : Type u} {β : Type v} {r : α → β → Prop} {l : List α} {m : List β} (h : Each r l m) {a : α} {b : β} (hab : r a b) :
    Each r (l ++ [a]) (m ++ [b]) := by
  induction h with
  | nil => exact .cons hab .nil
  | cons h1 _ ih => exact .cons h1 ih

/-- The REPL and the server go along. -/
def Along (st : Repl.Session) (sv : Zmq.Server) : Prop :=
  st.status = .running ∧ sv.dead = false ∧ st.store = sv.store ∧ (∀ r ∈ sv.replies, r.head? ≠ some '(') ∧
  ∃ shown : List (List Str), st.out = shown.flatten.map .text ∧ Each ReplyShown sv.replies shown

/-- The REPL is dead. -/
def Apart (st : Repl.Session) (sv : Zmq.Server) : Prop :=
  st.status = .panicked ∧ (sv.dead = true ∨ ∃ r ∈ sv.replies, r.head? = some '(')

theorem along_step {st : Repl.Session} {sv : Zmq.Server} (h : Along st sv) {l : Str} (hl : ¬ CommandLine l) :
    Along (Repl.step st (.line l)) (Zmq.step sv (some l)) ∨ Apart (Repl.step st (.line l)) (Zmq.step sv (some l)) := by
  obtain ⟨h1, h2, h3, h4, shown, h5, h6⟩ := h
  obtain ⟨k1, k2, k3⟩ := C51_script st l h1 hl
  have k4 := C76_shown st l h1 hl
  obtain ⟨z1, z2⟩ := zmq_step h2 l
  have hstore : (Repl.step st (.line l)).store = (Zmq.step sv (some l)).store := by rw [k1, z1, h3]
  rw [h3] at k2 k4
  have hrun : ∀ x, (runGraph l sv.store).1 = x → x ≠ .panic → (∀ q, x ≠ .ok (.quote q)) → (Repl.step st (.line l)).status = .running := by
    intro x hx hp hq
    cases hst : (Repl.step st (.line l)).status with
    | running => rfl
    | ended => exact absurd hst k3
    | panicked =>
      rcases k2.mp hst with h | ⟨q, h⟩
      · exact absurd (hx.symm.trans h) hp
      · exact absurd (hx.symm.trans h) (hq q)
  cases hr : (runGraph l sv.store).1 with
  | panic =>
    have hrep : replyTo l sv.store = none := by simp [replyTo, hr]
    rw [hrep] at z2
    exact .inr ⟨k2.mpr (.inl hr), .inl z2.2⟩
  | err m =>
    have hrep : replyTo l sv.store = some m := by simp [replyTo, hr]
    have hnl : ¬ LooksPrinted m := by
      rw [← C85_reply_tells l sv.store m hrep]
      rintro ⟨v, hv⟩; rw [hr] at hv; cases hv
    rw [hrep] at z2
    rw [hr] at k4
    refine .inl ⟨hrun _ hr (by simp) (by simp), z2.2, hstore, ?_, shown ++ [[errorLine m]], ?_, ?_⟩
    · intro r hrm
      rw [z2.1, List.mem_append, List.mem_singleton] at hrm
      rcases hrm with h | rfl
      · exact h4 r h
      · intro hh; exact hnl ⟨'(', by simp, hh⟩
    · rw [k4, h5]; simp
    · rw [z2.1]; exact each_snoc h6 (.error hnl)
  | ok v =>
    have hrep : replyTo l sv.store = some (layout v) := by simp [replyTo, hr, value_layout]
    rw [hrep] at z2
    rw [hr] at k4
    cases v with
    | quote q =>
      refine .inr ⟨k2.mpr (.inr ⟨q, hr⟩), .inr ⟨layout (.quote q), ?_, ?_⟩⟩
      · rw [z2.1]; simp
      · simp [layout, lit]
    | element e =>
      refine .inl ⟨hrun _ hr (by simp) (by simp), z2.2, hstore, ?_, shown ++ [[e.text]], ?_, ?_⟩
      · intro r hrm
        rw [z2.1, List.mem_append, List.mem_singleton] at hrm
        rcases hrm with h | rfl
        · exact h4 r h
        · simp [layout, literal, lit]
      · rw [k4, h5]; simp
      · rw [z2.1]; exact each_snoc h6 .element
    | network n =>
      refine .inl ⟨hrun _ hr (by simp) (by simp), z2.2, hstore, ?_, shown ++ [networkLines n], ?_, ?_⟩
      · intro r hrm
        rw [z2.1, List.mem_append, List.mem_singleton] at hrm
        rcases hrm with h | rfl
        · exact h4 r h
        · simp [layout, lit]
      · rw [k4, h5]; simp
      · rw [z2.1]; exact each_snoc h6 .network

theorem replies_kept (sv : Zmq.Server) (q : Option Str) : ∃ more, (Zmq.step sv q).replies = sv.replies ++ more := by
  unfold Zmq.step
  split
  · exact ⟨[], by simp⟩
  · cases q with
    | none => exact ⟨[], by simp⟩
    | some q =>
      simp only
      split
      · exact ⟨_, rfl⟩
      · exact ⟨_, rfl⟩
      · exact ⟨[], by simp⟩

theorem apart_step {st : Repl.Session} {sv : Zmq.Server} (h : Apart st sv) (l : Str) :
    Apart (Repl.step st (.line l)) (Zmq.step sv (some l)) := by
  obtain ⟨h1, h2⟩ := h
  rw [step_stopped (by rw [h1]; exact nofun)]
  refine ⟨h1, ?_⟩
  rcases h2 with h2 | ⟨r, hr, hh⟩
  · left; simp [Zmq.step, h2]
  · right
    obtain ⟨more, hm⟩ := replies_kept sv (some l)
    exact ⟨r, by rw [hm]; exact List.mem_append_left _ hr, hh⟩

theorem along_fold : ∀ (lines : List Str), (∀ l ∈ lines, ¬ CommandLine l) → ∀ st sv, Along st sv ∨ Apart st sv →
    Along ((lines.map Repl.Input.line).foldl Repl.step st) ((lines.map some).foldl Zmq.step sv) ∨
    Apart ((lines.map Repl.Input.line).foldl Repl.step st) ((lines.map some).foldl Zmq.step sv)
  | [], _, _, _, h => h
  | l :: lines, hl, st, sv, h => by
    rw [List.map_cons, List.map_cons, List.foldl_cons, List.foldl_cons]
    refine along_fold lines (fun x hx => hl x (List.mem_cons_of_mem _ hx)) _ _ ?_
    rcases h with h | h
    · exact along_step h (hl l List.mem_cons_self)
    · exact .inr (apart_step h l)

/-- C98: the same scripts given to the REPL and to the server, one by one.  The REPL is still running exactly if the server is and has
never replied with a quote (a reply beginning with `(`).  Then both have the same store, and what the REPL has shown is, reply by reply,
what the server replied. -/
theorem C98_repl_server (lines : List Str) (h : ∀ l ∈ lines, ¬ CommandLine l) :
    let repl := Repl.session (lines.map .line)
    let server := Zmq.serve (lines.map some)
    (repl.status = .running ↔ server.dead = false ∧ ∀ r ∈ server.replies, r.head? ≠ some '(') ∧
    (repl.status ≠ .running → repl.status = .panicked) ∧
    (repl.status = .running → repl.store = server.store ∧
      ∃ shown : List (List Str), repl.out = shown.flatten.map .text ∧ Each ReplyShown server.replies shown) := by
  have key : Along (Repl.session (lines.map .line)) (Zmq.serve (lines.map some)) ∨
      Apart (Repl.session (lines.map .line)) (Zmq.serve (lines.map some)) :=
    along_fold lines h .new .new (.inl ⟨rfl, rfl, rfl, by simp [Zmq.Server.new], [], rfl, .nil⟩)
  rcases key with ⟨h1, h2, h3, h4, h5⟩ | ⟨h1, h2⟩
  · exact ⟨⟨fun _ => ⟨h2, h4⟩, fun _ => h1⟩, fun hn => absurd h1 hn, fun _ => ⟨h3, h5⟩⟩
  · refine ⟨⟨fun hr => ?_, fun ⟨ha, hb⟩ => ?_⟩, fun _ => h1, fun hr => ?_⟩
    · rw [h1] at hr; cases hr
    · rcases h2 with h2 | ⟨r, hr, hh⟩
      · rw [ha] at h2; cases h2
      · exact absurd hh (hb r hr)
    · rw [h1] at hr; cases hr

/-- A session with a result, an error and an element; and one that kills the REPL but not the server. -/
example : (∀ l ∈ [lit "let x {a r b}", lit "read x", lit "read y", lit "id z"], ¬ CommandLine l) ∧
    (Repl.session ([lit "let x {a r b}", lit "read x", lit "read y", lit "id z"].map .line)).status = .running ∧
    (Repl.session ([lit "let x {a r b}", lit "read x", lit "read y", lit "id z"].map .line)).out.length = 6 ∧
    (Zmq.serve ([lit "id (a b)", lit "id z"].map some)).replies = [lit "(\"a\" \"b\")", lit "\"z\""] ∧
    (Repl.session ([lit "id (a b)", lit "id z"].map .line)).status = .panicked := by
  refine ⟨?_, by decide +kernel, by decide +kernel, by decide +kernel, by decide +kernel⟩
  intro l hl
  rw [← isCommand_iff]
  revert l
  decide +kernel

theorem lines_same {n m : Network} (h : Pairwise2 SameEntry n.toList m.toList) : networkLines n = networkLines m := by
  have key : ∀ {l l' : List Entry}, Pairwise2 SameEntry l l' →
      l.map (fun e => lit "  " ++ layoutEntry e) = l'.map (fun e => lit "  " ++ layoutEntry e) := by
    intro l l' h
    induction h with
    | nil => rfl
    | cons h1 _ ih =>
      rw [List.map_cons, List.map_cons, ih]
      congr 2
      rename_i x y _ _ _
      cases x <;> cases y <;> simp_all [SameEntry, layoutEntry]
  have hk := key h
  rw [networkLines, networkLines]
  cases h1 : n.toList with
  | nil => cases h2 : m.toList with
    | nil => rfl
    | cons e l => rw [h1, h2] at h; cases h
  | cons e l => cases h2 : m.toList with
    | nil => rw [h1, h2] at h; cases h
    | cons e' l' => rw [h1, h2] at hk; simp only [hk]

/-- C98: what the REPL shows for a script can be told from the reply of a server: the same reply, the same lines. -/
theorem C98_shown_from_reply (r : Str) (a b : List Str) (ha : ReplyShown r a) (hb : ReplyShown r b) : a = b := by
  have hlp : ∀ v, LooksPrinted (layout v) := fun v => value_layout v ▸ printed_looks v
  have hle : ∀ t, layout (.element ⟨t, none, none⟩) = literal t := fun t => by rw [layout]
  have key : ∀ {r a}, ReplyShown r a → (∃ t, r = layout (.element ⟨t, none, none⟩) ∧ a = [t]) ∨ (∃ n, r = layout (.network n) ∧ a = networkLines n) ∨
      (¬ LooksPrinted r ∧ a = [errorLine r]) := by
    intro r a h
    cases h with
    | element => exact .inl ⟨_, (hle _).symm, rfl⟩
    | network => exact .inr (.inl ⟨_, rfl, rfl⟩)
    | error hm => exact .inr (.inr ⟨hm, rfl⟩)
  have alike : ∀ v w, layout v = layout w → SameUpToTags v w := fun v w h => (C11_print_alike v w).mp (by rw [value_layout, value_layout, h])
  rcases key ha with ⟨t, rfl, rfl⟩ | ⟨n, rfl, rfl⟩ | ⟨h1, rfl⟩ <;> rcases key hb with ⟨t', h2, rfl⟩ | ⟨n', h2, rfl⟩ | ⟨h2, rfl⟩
  · cases alike _ _ h2 with
    | element h => exact congrArg (fun x => [x]) h
  · exact nomatch alike _ _ h2
  · exact absurd (hlp _) h2
  · exact nomatch alike _ _ h2
  · cases alike _ _ h2 with
    | network h => exact lines_same h
  · exact absurd (hlp _) h2
  · exact absurd (h2 ▸ hlp _) h1
  · exact absurd (h2 ▸ hlp _) h1
  · rfl

/-- A printed network of two entries and the lines that show it. -/
example : ReplyShown (lit "{\"a\" \"r\" \"c\", \"a\" : \"b\"}") [lit "{", lit "  \"a\" \"r\" \"c\"", lit "  \"a\" : \"b\"", lit "}"] := by
  have h := @ReplyShown.network (BSet.ofList [.ext (.of (lit "a")) (.of (lit "b")), .role (.of (lit "a")) (.of (lit "c")) (.of (lit "r"))])
  rw [show layout (.network (BSet.ofList [.ext (.of (lit "a")) (.of (lit "b")), .role (.of (lit "a")) (.of (lit "c")) (.of (lit "r"))])) =
      lit "{\"a\" \"r\" \"c\", \"a\" : \"b\"}" by rw [← value_layout]; decide +kernel] at h
  rw [show networkLines (BSet.ofList [.ext (.of (lit "a")) (.of (lit "b")), .role (.of (lit "a")) (.of (lit "c")) (.of (lit "r"))]) =
      [lit "{", lit "  \"a\" \"r\" \"c\"", lit "  \"a\" : \"b\"", lit "}"] by decide +kernel] at h
  exact h

theorem run_readOf (s : Mem) (c : Str) (hc : ∀ x ∈ c, ¬ Special x) :
    runGraph (readOf c) s = (Eval.read Graph.memOps [.element (.of c)] s, s) := by
  have hr : BareWord (lit "read") := bare_of (by decide)
  have r3 := run_printed Graph.memOps Eval.common [(lit "read", [.element (.of c)])] (by simp [hr, Unnested]) s
  have e : printedScript [(lit "read", [.element (.of c)])] = readOf c := by
    have : Display.value (.element (.of c)) = lit "\"" ++ c ++ lit "\"" := by
      rw [value_layout, layout, literal, Element.of, Display.escaped_clean hc]
    simp [printedScript, printedCall, List.flatMap_cons, this, readOf, show lit "read \"" = lit "read" ++ [' '] ++ lit "\"" by decide]
  rw [e] at r3
  rw [runGraph, r3]
  have := common_read Graph.memOps (.of c) s
  simp only [Spec.call, Element.of] at this
  simp only [List.map, reread, escapedElement, Element.of, Display.escaped_clean hc]
  exact this

theorem page_server_core (iter : BMap Str Wasm.Graphology → List (Str × Wasm.Graphology)) (hi : ∀ m, (iter m).Perm m.toList)
    (script c : Str) (hc : ∀ x ∈ c, ¬ Special x) (es : List (List Nat × JsVal)) (hpage : Wasm.runJs iter script = some (.map es))
    (us : List Nat) (hu : Spells us c) :
    (∃ v, (runGraph script Graph.memNew).1 = .ok v) ∧
    ∃ r, replyTo (readOf c) (runGraph script Graph.memNew).2 = some r ∧ SameCollection c (mapGet us es) r := by
  have hp := C77_value iter hi script
  cases hr : runGraph script Graph.memNew with
  | mk r s =>
    rw [hr] at hp
    cases r with
    | err msg =>
      obtain ⟨v, h1, us, rfl, -⟩ := hp
      rw [hpage] at h1; cases h1
    | panic => simp only at hp; rw [hpage] at hp; cases hp
    | ok v =>
      refine ⟨⟨v, rfl⟩, ?_⟩
      obtain ⟨es', h1, -, h3, h4⟩ := hp
      rw [hpage] at h1; cases h1
      have hrd := run_readOf s c hc
      rw [Eval.read] at hrd
      simp only [replyTo, hrd]
      cases he : Graph.memOps.entries s (.of c) with
      | ok n =>
        obtain ⟨w, hw, hd⟩ := h3 c us hu n he
        refine ⟨_, rfl, ?_⟩
        rw [hw, value_layout]
        exact .there hd
      | err m =>
        have hm : m = lit "Collection `" ++ c ++ lit "` not found." := by
          simp only [Graph.memOps, Graph.ops, Graph.entries, Mem.ops, Mem.triples, Element.of] at he
          cases hg : s.colls.get? c with
          | some x => rw [hg] at he; simp [Res.map] at he
          | none => rw [hg] at he; simpa [Res.map, eq_comm] using he
        refine ⟨_, rfl, ?_⟩
        rw [h4 us, hm]
        · rw [show lit "Error " ++ (lit "Collection `" ++ c ++ lit "` not found.") = lit "Error Collection `" ++ c ++ lit "` not found." by
            rw [show lit "Error Collection `" = lit "Error " ++ lit "Collection `" by decide]; simp only [List.append_assoc]]
          exact .missing
        · intro c' hc' n hn
          have : c' = c := spells_inj hc' hu
          subst this
          rw [he] at hn; cases hn
      | panic =>
        exfalso
        simp only [Graph.memOps, Graph.ops, Graph.entries, Mem.ops, Mem.triples, Element.of] at he
        cases hg : s.colls.get? c with
        | some x => rw [hg] at he; simp [Res.map] at he
        | none => rw [hg] at he; simp [Res.map] at he

/-- C98: a script that gives a page a Map leaves a new server with the collections the page has: asked to read any collection afterwards, the
server replies with the network the page has drawn under that name, or that there is none. -/
theorem C98_page_server (iter : BMap Str Wasm.Graphology → List (Str × Wasm.Graphology)) (hi : ∀ m, (iter m).Perm m.toList)
    (script c : Str) (hc : ∀ x ∈ c, ¬ Special x) (es : List (List Nat × JsVal)) (hpage : Wasm.runJs iter script = some (.map es))
    (us : List Nat) (hu : Spells us c) :
    let server := Zmq.serve [some script, some (readOf c)]
    server.dead = false ∧ ∃ r1 r2, server.replies = [r1, r2] ∧ SameCollection c (mapGet us es) r2 := by
  obtain ⟨⟨v, hv⟩, r, hr, hs⟩ := page_server_core iter hi script c hc es hpage us hu
  have h1 := one_request script
  rw [show replyTo script Graph.memNew = some (Display.value v) by simp [replyTo, hv]] at h1
  obtain ⟨a, b, d⟩ := h1
  have h2 := zmq_step d (readOf c)
  rw [a, hr] at h2
  have e : Zmq.serve [some script, some (readOf c)] = Zmq.step (Zmq.serve [some script]) (some (readOf c)) := rfl
  simp only [e]
  exact ⟨h2.2.2, _, r, by rw [h2.2.1, b]; rfl, hs⟩

/-- A script that gives the page a Map, and the replies of a server to reading a collection that is there and one that is not. -/
example : (∃ es, Wasm.runJs BMap.toList (lit "let x {a : b}, read x") = some (.map es)) ∧ (∀ x ∈ lit "x y", ¬ Special x) ∧ Spells [120] (lit "x") ∧
    (Zmq.serve [some (lit "let x {a : b}, read x"), some (readOf (lit "x"))]).replies.getLast? = some (lit "{\"a\" : \"b\"}") ∧
    (Zmq.serve [some (lit "let x {a : b}, read x"), some (readOf (lit "x y"))]).replies.getLast? = some (lit "Error Collection `x y` not found.") := by
  refine ⟨?_, by simp only [Special]; decide +kernel, .one (c := 'x') (by decide) .nil, by decide +kernel, by decide +kernel⟩
  exact (C98_one_script BMap.toList (fun _ => .refl _) _ (lit "a.wander") ⟨lit "a", rfl⟩).2.2.2.2.1.mp (by decide +kernel)

/-- C98: what is done over several requests can be done on a page at once: if well-formed scripts succeed in turn on a new server, the page
given all of them with commas between them gets a Map, and it has exactly the collections the server has afterwards. -/
theorem C98_requests_on_page (iter : BMap Str Wasm.Graphology → List (Str × Wasm.Graphology)) (hi : ∀ m, (iter m).Perm m.toList)
    (a : Str) (rest : List Str) (h : ∀ x ∈ a :: rest, Joinable x ∧ ∃ cs, Means x cs)
    (hok : ∃ v, (inTurn runGraph a rest Graph.memNew).1 = .ok v) :
    ∃ es, Wasm.runJs iter (separated (lit ",") (a :: rest)) = some (.map es) ∧
      ∀ c us, (∀ x ∈ c, ¬ Special x) → Spells us c →
        let server := Zmq.serve ((a :: rest).map some ++ [some (readOf c)])
        server.dead = false ∧ ∃ r, server.replies.getLast? = some r ∧ SameCollection c (mapGet us es) r := by
  obtain ⟨v, hv⟩ := hok
  obtain ⟨s', hs⟩ : ∃ s', inTurn runGraph a rest Graph.memNew = (.ok v, s') := ⟨_, Prod.ext hv rfl⟩
  have hj : runGraph (separated (lit ",") (a :: rest)) Graph.memNew = (.ok v, s') :=
    (C63_many Graph.memOps Eval.common a rest _ h).trans hs
  have hp := C77_value iter hi (separated (lit ",") (a :: rest))
  rw [hj] at hp
  obtain ⟨es, h1, -⟩ := hp
  refine ⟨es, h1, ?_⟩
  intro c us hc hu
  obtain ⟨-, r, hr, hsame⟩ := page_server_core iter hi _ c hc es h1 us hu
  rw [hj] at hr
  obtain ⟨rs, -, he⟩ := serve_in_turn rest a .new v s' rfl hs
  have h2 := zmq_step (sv := ⟨s', Zmq.Server.new.replies ++ (rs ++ [Display.value v]), false⟩) rfl (readOf c)
  rw [hr] at h2
  have e : Zmq.serve ((a :: rest).map some ++ [some (readOf c)]) =
      Zmq.step ⟨s', Zmq.Server.new.replies ++ (rs ++ [Display.value v]), false⟩ (some (readOf c)) := by
    rw [serve_snoc, Zmq.serve, he]
  simp only [e]
  exact ⟨h2.2.2, r, by rw [h2.2.1, List.getLast?_concat], hsame⟩

/-- `C98_requests_on_page` applies to three scripts. -/
example := C98_requests_on_page BMap.toList (fun _ => .refl _) (lit "let x {a b c}") [lit "let y {d : e}", lit "read y"]
  (fun x hx => three_scripts.1 x hx) ⟨_, three_scripts.2.1.choose_spec⟩

end Props
end Verif

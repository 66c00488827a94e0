import Verif.Spec.Linear
/-!
# Concurrent operations on one LMDB environment: the invariant
-/
namespace Verif
namespace Heed
open Spec

theorem before_snoc {α : Type} {l : List α} {x y z : α} (h : Before (l ++ [z]) x y) : Before l x y ∨ (x ∈ l ∧ y = z) := by
  unfold Before at *
  rw [List.sublist_append_iff] at h
  obtain ⟨a, b, e, h1, h2⟩ := h
  cases a with
  | nil =>
    simp only [List.nil_append] at e
    subst e
    have := h2.length_le
    simp at this
  | cons a1 as =>
    cases as with
    | nil =>
      simp only [List.cons_append, List.nil_append, List.cons.injEq] at e
      obtain ⟨rfl, rfl⟩ := e
      refine .inr ⟨by simpa using h1, ?_⟩
      simpa using h2
    | cons a2 as =>
      cases as with
      | nil =>
        simp only [List.cons_append, List.nil_append, List.cons.injEq] at e
        obtain ⟨rfl, rfl, _⟩ := e
        exact .inl h1
      | cons => simp at e

theorem before_append {α : Type} {l : List α} {x y z : α} (h : Before l x y) : Before (l ++ [z]) x y :=
  List.Sublist.trans h (List.sublist_append_left _ _)

theorem before_last {α : Type} {l : List α} {x z : α} (h : x ∈ l) : Before (l ++ [z]) x z := by
  unfold Before
  exact List.Sublist.append (l₁ := [x]) (List.singleton_sublist.mpr h) (List.Sublist.refl [z])

theorem before_mem {α : Type} {l : List α} {x y : α} (h : Before l x y) : x ∈ l ∧ y ∈ l := by
  have := h.subset
  exact ⟨this (by simp), this (by simp)⟩

/-- What the phase of operation `i` says. -/
def PhaseOk (s : Sys) (h : List Ev) (S : List Turn) (i : Nat) : Phase → Prop
  | .fresh => (∀ q, Ev.inv i q ∉ h) ∧ (∀ a, Ev.ret i a ∉ h) ∧ i ∉ S.map Turn.id
  | .called q => Ev.inv i q ∈ h ∧ i ∉ S.map Turn.id
  | .writing op snap => Ev.inv i (.update op) ∈ h ∧ i ∉ S.map Turn.id ∧ s.owner = some i ∧ snap = s.durable
  | .reading q snap => ∃ ok, (⟨i, q, ok, lookup snap q⟩ : Turn) ∈ S
  | .ended a => ∃ q ok, (⟨i, q, ok, a⟩ : Turn) ∈ S
  | .returned => True
  | .dead => True

structure LInv (d : Heed) (s : Sys) (h : List Ev) (S : List Turn) : Prop where
  legal : OneByOne d S s.durable
  acc : Accounts h S
  phases : ∀ i, PhaseOk s h S i (s.phase i)

theorem phaseOk_event {s : Sys} {h : List Ev} {S : List Turn} {i : Nat} {p : Phase} (hp : PhaseOk s h S i p) (e : Ev)
    (he : (∀ q, e ≠ .inv i q) ∧ (∀ a, e ≠ .ret i a)) : PhaseOk s (h ++ [e]) S i p := by
  cases p with
  | fresh =>
    refine ⟨fun q hq => ?_, fun a ha => ?_, hp.2.2⟩
    · rcases List.mem_append.mp hq with hq | hq
      · exact hp.1 q hq
      · exact he.1 q (List.mem_singleton.mp hq).symm
    · rcases List.mem_append.mp ha with ha | ha
      · exact hp.2.1 a ha
      · exact he.2 a (List.mem_singleton.mp ha).symm
  | called q => exact ⟨by simp [hp.1], hp.2⟩
  | writing op snap => exact ⟨by simp [hp.1], hp.2⟩
  | reading q snap => exact hp
  | ended a => exact hp
  | returned => trivial
  | dead => trivial

/-- A turn of another operation is taken at the end. -/
theorem phaseOk_turn {s s' : Sys} {h : List Ev} {S : List Turn} {i : Nat} {p : Phase} (hp : PhaseOk s h S i p) (t : Turn) (ht : t.id ≠ i)
    (hw : ∀ op snap, p = .writing op snap → s'.owner = s.owner ∧ s'.durable = s.durable) : PhaseOk s' h (S ++ [t]) i p := by
  have hid : i ∉ S.map Turn.id → i ∉ (S ++ [t]).map Turn.id := by
    intro h1 h2
    rw [List.map_append] at h2
    rcases List.mem_append.mp h2 with h2 | h2
    · exact h1 h2
    · exact ht (List.mem_singleton.mp h2).symm
  cases p with
  | fresh => exact ⟨hp.1, hp.2.1, hid hp.2.2⟩
  | called q => exact ⟨hp.1, hid hp.2⟩
  | writing op snap =>
    obtain ⟨e1, e2⟩ := hw op snap rfl
    exact ⟨hp.1, hid hp.2.1, by rw [e1]; exact hp.2.2.1, by rw [e2]; exact hp.2.2.2⟩
  | reading q snap => obtain ⟨ok, hp⟩ := hp; exact ⟨ok, by simp [hp]⟩
  | ended a => obtain ⟨q, ok, hp⟩ := hp; exact ⟨q, ok, by simp [hp]⟩
  | returned => trivial
  | dead => trivial

/-- Nothing that concerns this operation changes. -/
theorem phaseOk_same {s s' : Sys} {h : List Ev} {S : List Turn} {i : Nat} {p : Phase} (hp : PhaseOk s h S i p)
    (hw : ∀ op snap, p = .writing op snap → s'.owner = s.owner ∧ s'.durable = s.durable) : PhaseOk s' h S i p := by
  cases p with
  | writing op snap =>
    obtain ⟨e1, e2⟩ := hw op snap rfl
    exact ⟨hp.1, hp.2.1, by rw [e1]; exact hp.2.2.1, by rw [e2]; exact hp.2.2.2⟩
  | fresh => exact hp
  | called q => exact hp
  | reading q snap => exact hp
  | ended a => exact hp
  | returned => trivial
  | dead => trivial

theorem accounts_turn {h : List Ev} {S : List Turn} (ha : Accounts h S) (t : Turn) (hn : t.id ∉ S.map Turn.id) (hc : Ev.inv t.id t.req ∈ h) :
    Accounts h (S ++ [t]) where
  once := by
    rw [List.map_append, List.nodup_append]
    refine ⟨ha.once, by simp, ?_⟩
    rintro a h1 b h2 rfl
    exact hn (by simp only [List.map_cons, List.map_nil, List.mem_singleton] at h2; rwa [h2] at h1)
  returned i a hi := by
    obtain ⟨u, hu, e⟩ := ha.returned i a hi
    exact ⟨u, by simp [hu], e⟩
  called u hu := by
    rcases List.mem_append.mp hu with hu | hu
    · exact ha.called u hu
    · rw [List.mem_singleton.mp hu]; exact hc
  realTime i a j q hb hj := by
    rw [List.map_append] at hj ⊢
    rcases List.mem_append.mp hj with hj | hj
    · exact before_append (ha.realTime i a j q hb hj)
    · obtain ⟨u, hu, e, _⟩ := ha.returned i a (before_mem hb).1
      have hj : j = t.id := by simpa using hj
      subst hj
      exact before_last (by rw [List.mem_map]; exact ⟨u, hu, e⟩)

theorem accounts_inv {h : List Ev} {S : List Turn} (ha : Accounts h S) (i : Nat) (q : Req) (hn : i ∉ S.map Turn.id) :
    Accounts (h ++ [.inv i q]) S where
  once := ha.once
  returned j a hj := by
    rcases List.mem_append.mp hj with hj | hj
    · exact ha.returned j a hj
    · simp at hj
  called u hu := by simp [ha.called u hu]
  realTime k a j r hb hj := by
    rcases before_snoc hb with hb | ⟨_, hb⟩
    · exact ha.realTime k a j r hb hj
    · cases hb; exact absurd hj hn

theorem accounts_ret {h : List Ev} {S : List Turn} (ha : Accounts h S) (i : Nat) (a : Ans) (ht : ∃ t ∈ S, t.id = i ∧ t.ans = a) :
    Accounts (h ++ [.ret i a]) S where
  once := ha.once
  returned j b hj := by
    rcases List.mem_append.mp hj with hj | hj
    · exact ha.returned j b hj
    · simp only [List.mem_singleton, Ev.ret.injEq] at hj
      obtain ⟨rfl, rfl⟩ := hj
      exact ht
  called u hu := by simp [ha.called u hu]
  realTime k b j r hb hj := by
    rcases before_snoc hb with hb | ⟨_, hb⟩
    · exact ha.realTime k b j r hb hj
    · cases hb

theorem put_self (s : Sys) (i : Nat) (p : Phase) : s.put i p i = p := by simp [Sys.put]
theorem put_other (s : Sys) {i j : Nat} (p : Phase) (h : j ≠ i) : s.put i p j = s.phase j := by simp [Sys.put, h]

theorem alone_update (ok : Bool) (s : Heed) (op : Op) : alone ok s (.update op) = (.done (execTx ok s op).1, (execTx ok s op).2.durable) := rfl
theorem alone_lookup (ok : Bool) (s : Heed) (q : Req) (hq : ∀ op, q ≠ .update op) : alone ok s q = (lookup s q, s) := by
  cases q with
  | update op => exact absurd rfl (hq op)
  | collections => rfl
  | triples c => rfl

theorem linv_quiet {d : Heed} {s t : Sys} {h : List Ev} {S : List Turn} (hi : LInv d s h S) (hs : Step s none t) : ∃ S', LInv d t h S' := by
  cases hs with
  | beginWrite i op hp ho =>
    have hpi := hi.phases i
    rw [hp] at hpi
    refine ⟨S, hi.legal, hi.acc, fun j => ?_⟩
    by_cases e : j = i
    · subst e; rw [show (Sys.mk s.durable (some j) (s.put j (.writing op s.durable))).phase j = _ from put_self s j _]
      exact ⟨hpi.1, hpi.2, rfl, rfl⟩
    · rw [show (Sys.mk s.durable (some i) (s.put i (.writing op s.durable))).phase j = _ from put_other s _ e]
      refine phaseOk_same (hi.phases j) ?_
      intro op' snap e'
      have := hi.phases j
      rw [e'] at this
      rw [this.2.2.1] at ho; cases ho
  | endWrite i op snap ok hp =>
    have hpi := hi.phases i
    rw [hp] at hpi
    obtain ⟨h1, h2, h3, h4⟩ := hpi
    subst h4
    refine ⟨S ++ [⟨i, .update op, ok, .done (execTx ok s.durable op).1⟩], .snoc i ok (.update op) hi.legal,
      accounts_turn hi.acc _ h2 h1, fun j => ?_⟩
    by_cases e : j = i
    · subst e
      rw [show (Sys.mk _ none (s.put j _)).phase j = _ from put_self s j _]
      exact ⟨.update op, ok, by simp⟩
    · rw [show (Sys.mk _ none (s.put i _)).phase j = _ from put_other s _ e]
      refine phaseOk_turn (hi.phases j) _ (fun h => e h.symm) ?_
      intro op' snap e'
      have := hi.phases j
      rw [e'] at this
      rw [this.2.2.1] at h3; cases h3; exact absurd rfl e
  | beginRead i q hp hq =>
    have hpi := hi.phases i
    rw [hp] at hpi
    have hl := OneByOne.snoc (d := d) i true q hi.legal
    rw [alone_lookup true s.durable q hq] at hl
    refine ⟨S ++ [⟨i, q, true, lookup s.durable q⟩], hl, accounts_turn hi.acc _ hpi.2 hpi.1, fun j => ?_⟩
    by_cases e : j = i
    · subst e
      rw [show (Sys.mk _ s.owner (s.put j _)).phase j = _ from put_self s j _]
      exact ⟨true, by simp⟩
    · rw [show (Sys.mk _ s.owner (s.put i _)).phase j = _ from put_other s _ e]
      exact phaseOk_turn (hi.phases j) _ (fun h => e h.symm) (fun _ _ _ => ⟨rfl, rfl⟩)
  | endRead i q snap hp =>
    have hpi := hi.phases i
    rw [hp] at hpi
    refine ⟨S, hi.legal, hi.acc, fun j => ?_⟩
    by_cases e : j = i
    · subst e
      rw [show (Sys.mk _ s.owner (s.put j _)).phase j = _ from put_self s j _]
      obtain ⟨ok, h⟩ := hpi
      exact ⟨q, ok, h⟩
    · rw [show (Sys.mk _ s.owner (s.put i _)).phase j = _ from put_other s _ e]
      exact phaseOk_same (hi.phases j) (fun _ _ _ => ⟨rfl, rfl⟩)
  | die i h1 h2 =>
    refine ⟨S, hi.legal, hi.acc, fun j => ?_⟩
    by_cases e : j = i
    · subst e
      rw [show (Sys.mk _ _ (s.put j _)).phase j = _ from put_self s j _]
      trivial
    · rw [show (Sys.mk _ _ (s.put i _)).phase j = _ from put_other s _ e]
      refine phaseOk_same (hi.phases j) ?_
      intro op' snap e'
      have := hi.phases j
      rw [e'] at this
      refine ⟨?_, rfl⟩
      show (if s.owner = some i then none else s.owner) = s.owner
      rw [if_neg]
      rw [this.2.2.1]
      intro h; cases h; exact e rfl

theorem linv_shown {d : Heed} {s t : Sys} {h : List Ev} {S : List Turn} {e : Ev} (hi : LInv d s h S) (hs : Step s (some e) t) :
    LInv d t (h ++ [e]) S := by
  cases hs with
  | call i q hp =>
    have hpi := hi.phases i
    rw [hp] at hpi
    refine ⟨hi.legal, accounts_inv hi.acc i q hpi.2.2, fun j => ?_⟩
    by_cases e : j = i
    · subst e
      rw [show (Sys.mk _ s.owner (s.put j _)).phase j = _ from put_self s j _]
      exact ⟨by simp, hpi.2.2⟩
    · rw [show (Sys.mk _ s.owner (s.put i _)).phase j = _ from put_other s _ e]
      refine phaseOk_event (phaseOk_same (hi.phases j) (fun _ _ _ => ⟨rfl, rfl⟩)) _ ⟨?_, nofun⟩
      rintro r ⟨⟩; exact e rfl
  | giveBack i a hp =>
    have hpi := hi.phases i
    rw [hp] at hpi
    obtain ⟨q, ok, hm⟩ := hpi
    refine ⟨hi.legal, accounts_ret hi.acc i a ⟨_, hm, rfl, rfl⟩, fun j => ?_⟩
    by_cases e : j = i
    · subst e
      rw [show (Sys.mk _ s.owner (s.put j _)).phase j = _ from put_self s j _]
      trivial
    · rw [show (Sys.mk _ s.owner (s.put i _)).phase j = _ from put_other s _ e]
      refine phaseOk_event (phaseOk_same (hi.phases j) (fun _ _ _ => ⟨rfl, rfl⟩)) _ ⟨nofun, ?_⟩
      rintro r ⟨⟩; exact e rfl

theorem linv_runs {d : Heed} {s : Sys} {h : List Ev} (hr : Runs d s h) : ∃ S, LInv d s h S := by
  induction hr with
  | start =>
    refine ⟨[], .nil, ⟨by simp, by simp, by simp, by simp⟩, fun i => ?_⟩
    exact ⟨by simp, by simp, by simp⟩
  | quiet _ hs ih => obtain ⟨S, hi⟩ := ih; exact linv_quiet hi hs
  | shown _ hs ih => obtain ⟨S, hi⟩ := ih; exact ⟨S, linv_shown hi hs⟩

/-- The write lock is held only by an operation that is writing. -/
theorem owner_runs {d : Heed} {s : Sys} {h : List Ev} (hr : Runs d s h) : ∀ i, s.owner = some i → ∃ op snap, s.phase i = .writing op snap := by
  have other : ∀ {s : Sys} {i : Nat} {p : Phase}, (∀ j, s.owner = some j → ∃ op snap, s.phase j = .writing op snap) →
      (∀ op snap, s.phase i ≠ .writing op snap) → ∀ j, s.owner = some j → ∃ op snap, s.put i p j = .writing op snap := by
    intro s i p h hn j hj
    obtain ⟨op, snap, e⟩ := h j hj
    by_cases e' : j = i
    · subst e'; exact absurd e (hn op snap)
    · exact ⟨op, snap, by rw [put_other s p e']; exact e⟩
  induction hr with
  | start => intro i hi; cases hi
  | @quiet s _ _ _ hs ih =>
    cases hs with
    | beginWrite i op hp ho =>
      rintro j ⟨⟩
      exact ⟨op, _, put_self _ i _⟩
    | endWrite i op snap ok hp => intro j hj; cases hj
    | beginRead i q hp hq => exact other ih (by rw [hp]; nofun)
    | endRead i q snap hp => exact other ih (by rw [hp]; nofun)
    | die i h1 h2 =>
      intro j hj
      by_cases e : s.owner = some i
      · rw [show (Sys.mk s.durable (if s.owner = some i then none else s.owner) (s.put i .dead)).owner = none from if_pos e] at hj
        cases hj
      · rw [show (Sys.mk s.durable (if s.owner = some i then none else s.owner) (s.put i .dead)).owner = s.owner from if_neg e] at hj
        have hji : j ≠ i := fun h => e (by rw [hj, h])
        obtain ⟨op, snap, e'⟩ := ih j hj
        exact ⟨op, snap, by rw [show (Sys.mk _ _ (s.put i .dead)).phase j = _ from put_other s _ hji]; exact e'⟩
  | shown _ hs ih =>
    cases hs with
    | call i q hp => exact other ih (by rw [hp]; nofun)
    | giveBack i a hp => exact other ih (by rw [hp]; nofun)

/-- The lock can be freed without anybody dying, leaving every operation alone that is not writing. -/
theorem free_lock {d : Heed} {s : Sys} {h : List Ev} (hr : Runs d s h) : ∃ t, Runs d t h ∧ t.owner = none ∧
    (∀ j, t.phase j = .dead → s.phase j = .dead) ∧ (∀ j, (∀ op snap, s.phase j ≠ .writing op snap) → t.phase j = s.phase j) := by
  cases ho : s.owner with
  | none => exact ⟨s, hr, ho, fun _ h => h, fun _ _ => rfl⟩
  | some i =>
    obtain ⟨op, snap, e⟩ := owner_runs hr i ho
    refine ⟨_, .quiet hr (.endWrite i op snap true e), rfl, ?_, ?_⟩
    · intro j hj
      by_cases e' : j = i
      · subst e'
        rw [show (Sys.mk _ _ (s.put j _)).phase j = _ from put_self s j _] at hj
        cases hj
      · rwa [show (Sys.mk _ _ (s.put i _)).phase j = _ from put_other s _ e'] at hj
    · intro j hj
      by_cases e' : j = i
      · subst e'; exact absurd e (hj op snap)
      · exact put_other s _ e'

/-- One more step of operation `i`, nobody dying. -/
theorem dead_put {s : Sys} {i : Nat} {p : Phase} (hp : p ≠ .dead) (j : Nat) (h : s.put i p j = .dead) : s.phase j = .dead := by
  by_cases e : j = i
  · subst e; rw [put_self] at h; exact absurd h hp
  · rwa [put_other s p e] at h

theorem finish {d : Heed} {s : Sys} {h : List Ev} (hr : Runs d s h) (i : Nat) (hf : s.phase i ≠ .fresh) (hd : s.phase i ≠ .dead)
    (hret : s.phase i ≠ .returned) : ∃ t a, Runs d t (h ++ [.ret i a]) ∧ ∀ j, t.phase j = .dead → s.phase j = .dead := by
  have ended : ∀ {s : Sys} {h : List Ev} {a : Ans}, Runs d s h → s.phase i = .ended a →
      ∃ t a, Runs d t (h ++ [.ret i a]) ∧ ∀ j, t.phase j = .dead → s.phase j = .dead := by
    intro s h a hr hp
    exact ⟨_, a, .shown hr (.giveBack i a hp), fun j hj => dead_put (by simp) j hj⟩
  have reading : ∀ {s : Sys} {h : List Ev} {q : Req} {snap : Heed}, Runs d s h → s.phase i = .reading q snap →
      ∃ t a, Runs d t (h ++ [.ret i a]) ∧ ∀ j, t.phase j = .dead → s.phase j = .dead := by
    intro s h q snap hr hp
    obtain ⟨t, a, h1, h2⟩ := ended (.quiet hr (.endRead i q snap hp)) (put_self s i _)
    exact ⟨t, a, h1, fun j hj => dead_put (by simp) j (h2 j hj)⟩
  have writing : ∀ {s : Sys} {h : List Ev} {op : Op} {snap : Heed}, Runs d s h → s.phase i = .writing op snap →
      ∃ t a, Runs d t (h ++ [.ret i a]) ∧ ∀ j, t.phase j = .dead → s.phase j = .dead := by
    intro s h op snap hr hp
    obtain ⟨t, a, h1, h2⟩ := ended (.quiet hr (.endWrite i op snap true hp)) (put_self s i _)
    exact ⟨t, a, h1, fun j hj => dead_put (by simp) j (h2 j hj)⟩
  cases hp : s.phase i with
  | fresh => exact absurd hp hf
  | dead => exact absurd hp hd
  | returned => exact absurd hp hret
  | ended a => exact ended hr hp
  | reading q snap => exact reading hr hp
  | writing op snap => exact writing hr hp
  | called q =>
    have query : (∀ op, q ≠ .update op) → ∃ t a, Runs d t (h ++ [.ret i a]) ∧ ∀ j, t.phase j = .dead → s.phase j = .dead := by
      intro hq
      obtain ⟨t, a, h1, h2⟩ := reading (.quiet hr (.beginRead i q hp hq)) (put_self s i _)
      exact ⟨t, a, h1, fun j hj => dead_put (by simp) j (h2 j hj)⟩
    cases q with
    | collections => exact query nofun
    | triples c => exact query nofun
    | update op =>
      obtain ⟨u, hu, ho, hdead, hsame⟩ := free_lock hr
      have hpu : u.phase i = .called (.update op) := by rw [hsame i (by rw [hp]; nofun), hp]
      obtain ⟨t, a, h1, h2⟩ := writing (.quiet hu (.beginWrite i op hpu ho)) (put_self u i _)
      exact ⟨t, a, h1, fun j hj => hdead j (dead_put (by simp) j (h2 j hj))⟩

/-- A fresh operation that has the environment for itself. -/
theorem solo {d : Heed} {s : Sys} {h : List Ev} (hr : Runs d s h) (ho : s.owner = none) (i : Nat) (q : Req) (hf : s.phase i = .fresh) :
    ∃ t, Runs d t (h ++ [.inv i q, .ret i (alone true s.durable q).1]) ∧ t.durable = (alone true s.durable q).2 ∧ t.owner = none ∧
      ∀ j, j ≠ i → t.phase j = s.phase j := by
  have h1 := Runs.shown hr (.call i q hf)
  have query : (∀ op, q ≠ .update op) → ∃ t, Runs d t (h ++ [.inv i q, .ret i (alone true s.durable q).1]) ∧
      t.durable = (alone true s.durable q).2 ∧ t.owner = none ∧ ∀ j, j ≠ i → t.phase j = s.phase j := by
    intro hq
    have h2 := Runs.quiet h1 (.beginRead i q (put_self s i _) hq)
    have h3 := Runs.quiet h2 (.endRead i q s.durable (put_self _ i _))
    have h4 := Runs.shown h3 (.giveBack i _ (put_self _ i _))
    rw [List.append_assoc] at h4
    rw [alone_lookup true s.durable q hq]
    refine ⟨_, h4, rfl, ho, ?_⟩
    intro j hj
    simp [Sys.put, hj]
  cases q with
  | collections => exact query nofun
  | triples c => exact query nofun
  | update op =>
    have h2 := Runs.quiet h1 (.beginWrite i op (put_self s i _) ho)
    have h3 := Runs.quiet h2 (.endWrite i op s.durable true (put_self _ i _))
    have h4 := Runs.shown h3 (.giveBack i _ (put_self _ i _))
    rw [List.append_assoc] at h4
    refine ⟨_, h4, rfl, rfl, ?_⟩
    intro j hj
    simp [Sys.put, hj]

end Heed
end Verif

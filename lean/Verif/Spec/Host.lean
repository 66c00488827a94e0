import Verif.Model.EvalHost
import Verif.Spec.Strict
/-!
# Specification vocabulary for host commands that call back
-/
namespace Verif
namespace Spec
open EvalHost

/-- Running the calls ends, with this outcome and this store. -/
def Ends (L : LigOps σ) (t : Table) (calls : List Call) (s : σ) (out : Res Value × σ) : Prop := ∃ limit, runCalls L t limit calls s = some out

/-- Two implementations of the store interface give the same answers on related states, and the states after are related. -/
def SameMethods (R : σ → τ → Prop) (L : LigOps σ) (L' : LigOps τ) : Prop :=
  ∀ q s t, R s t → (perform L s q).1 = (perform L' t q).1 ∧ R (perform L s q).2 (perform L' t q).2

/-- As long as the first does not panic, the second gives the same answers on related states, and the states after are related. -/
def FollowsMethods (R : σ → τ → Prop) (L : LigOps σ) (L' : LigOps τ) : Prop :=
  ∀ q s t, R s t → ∀ a, (perform L s q).1 = some a → (perform L' t q).1 = some a ∧ R (perform L s q).2 (perform L' t q).2

/-- `strictOps` that also refuses to list collections (the three stores list them in different orders). -/
def guardedOps : LigOps (Mem × Nat) := { strictOps with collections := fun _ => .panic }

/-- No method of the store leads out of `P`. -/
def KeptByMethods (L : LigOps σ) (P : σ → Prop) : Prop := ∀ q s, P s → P (perform L s q).2

/-- The body of the command never runs calls, whatever it is answered. -/
def NoCallback : Host → Prop
  | .ret _ => True
  | .store _ k => ∀ a, NoCallback (k a)
  | .commands k => ∀ l, NoCallback (k l)
  | .run _ _ => False

/-- Every call the body may run, whatever it is answered, satisfies `P`. -/
def OnlyRuns (P : Call → Prop) : Host → Prop
  | .ret _ => True
  | .store _ k => ∀ a, OnlyRuns P (k a)
  | .commands k => ∀ l, OnlyRuns P (k l)
  | .run calls k => (∀ c ∈ calls, P c) ∧ ∀ r, OnlyRuns P (k r)

/-- What a body that never runs calls does to the store (`names`: what it is told of the table). -/
def plainRun (L : LigOps σ) (names : List (Str × Str)) : Host → σ → Res Value × σ
  | .ret r, s => (r, s)
  | .store q k, s =>
    match perform L s q with
    | (none, s1) => (.panic, s1)
    | (some a, s1) => plainRun L names (k a) s1
  | .commands k, s => plainRun L names (k names) s
  | .run _ _, s => (.panic, s)

/-- A table as the evaluator of `Model/Eval.lean` takes it: a host command is a function of the arguments and the store. -/
def asEval (L : LigOps σ) (t : Table) : Eval.Commands σ := t.map fun p =>
  (p.1, ⟨p.2.doc, match p.2.fn with
    | .builtin b => .builtin b
    | .host body => .host fun args s => plainRun L (t.map fun p => (p.1, p.2.doc)) (body args) s⟩)

/-- A command that runs fixed calls. -/
def macro_ (calls : List Call) : List Value → Host := fun _ => .run calls fun r =>
  match r with
  | .ok v => .ret (.ok v)
  | .error m => .ret (.err m)

end Spec
end Verif

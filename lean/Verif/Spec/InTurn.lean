import Verif.Spec.Script
/-!
# Running several scripts one after another
-/
namespace Verif
namespace Spec

/-- Run the scripts one after another, each from the store the one before left, and stop at the first that fails.  The result is that of
the last script run. -/
def inTurn {σ : Type u} (run : Str → σ → Res Value × σ) : Str → List Str → σ → Res Value × σ
  | a, [], s => run a s
  | a, b :: rest, s =>
    match run a s with
    | (.ok _, s1) => inTurn run b rest s1
    | (.err m, s1) => (.err m, s1)
    | (.panic, s1) => (.panic, s1)

end Spec
end Verif

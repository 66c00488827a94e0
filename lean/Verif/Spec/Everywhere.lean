import Verif.Spec.Screen
import Verif.Spec.Messages
import Verif.Spec.Js
/-!
# Specification: one script in several applications
-/
namespace Verif
namespace Spec

/-- What the REPL shows for a script, told from what the server replies to it: an element's plain text for its literal, a network line by
line for a printed network, and the error line for any other reply, which is a message.  (A quote, the other kind of printed value, kills the REPL.) -/
inductive ReplyShown : Str → List Str → Prop where
  | element {text} : ReplyShown (literal text) [text]
  | network {n} : ReplyShown (layout (.network n)) (networkLines n)
  | error {m} : ¬ LooksPrinted m → ReplyShown m [errorLine m]

/-- The script that reads a collection, the name in double quotes. -/
def readOf (c : Str) : Str := lit "read \"" ++ c ++ lit "\""

/-- What the server replies when asked to read a collection, and what a page has under its name, say the same: the printed network and a
drawing of it, or a message that the collection is missing and nothing. -/
inductive SameCollection (c : Str) : Option Wasm.JsVal → Str → Prop where
  | there {v n} : Draws v n → SameCollection c (some v) (layout (.network n))
  | missing : SameCollection c none (lit "Error Collection `" ++ c ++ lit "` not found.")

end Spec
end Verif

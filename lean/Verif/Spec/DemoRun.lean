import Verif.Model.Build
import Verif.Spec.Demo
/-!
# Running the whole model on one source text, for the examples
-/
namespace Che

/-- What parsing and translating a one-file program ends with. -/
def outcome [Unicode] (text : String) : String :=
  match parseProject (memFS [("/main.c", text)]) 2000 "/main.c" with
  | .ok _ => "ok"
  | .err es => String.join (es.map (fun e => e.pos ++ " " ++ e.message ++ ";"))
  | .panic m => "panic at " ++ m
  | .diverge => "no end"

end Che

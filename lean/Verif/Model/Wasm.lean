import Verif.Model.OpenTag
/-!
Model of `dr-html-wasm/src/lib.rs`: the function that programs in browsers call. It writes JSON by hand.
-/
namespace Verif.Wasm
open Verif.OpenTag

/-- `str::replace`, of one character -/
def replace (c : Char) (by' : Str) (s : Str) : Str := s.flatMap fun d => if d = c then by' else [d]

/-- `dr-html-wasm/src/lib.rs:24-27`, `34-37` — `.replace('"', "\\\"").replace('\n', "\\n")` -/
def quoted (s : Str) : Str := replace '\n' "\\n".toList (replace '"' "\\\"".toList s)

/-- `dr-html-wasm/src/lib.rs:10-40` — `convert`, given what the parser and the backend make of the document: the page, or the texts of the
diagnostics (`Diagnostic::plain_text`) -/
def convert : Except (List Str) Str → Str
  | .ok html => "{\"success\":true,\"html\":\"".toList ++ quoted html ++ "\"}".toList
  | .error ds => "{\"success\":false,\"errors\":[\"".toList ++ quoted (("\",\"".toList).intercalate ds) ++ "\"]}".toList

end Verif.Wasm

/-!
# The page that shows a control-flow graph

`open_dot` (crates/revmc-cli/src/cmd/run.rs:283-341) writes the DOT source of a graph into a template literal of a
script when the `dot` command cannot be used. Texts are lists of characters.
-/

namespace Verif.DotHtml

/-- `str::replace` of one character. -/
def replaceChar (c : Char) (w : List Char) (s : List Char) : List Char :=
  s.flatMap fun x => if x = c then w else [x]

/-- `replace("${", "\\${")`: occurrences from left to right, not overlapping. -/
def replaceOpen : List Char → List Char
  | [] => []
  | '$' :: '{' :: r => '\\' :: '$' :: '{' :: replaceOpen r
  | c :: r => c :: replaceOpen r

/-- `dot_escaped` (run.rs:306). -/
def escape (s : List Char) : List Char :=
  replaceOpen (replaceChar '`' ['\\', '`'] (replaceChar '\\' ['\\', '\\'] s))

end Verif.DotHtml

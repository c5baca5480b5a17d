/-!
HTML escaping. Models `backend/src/html/htmlbuf.rs:150-187` (`push_escaped`,
`push_url_encoded`, `NUMERIC_CHAR_REF`), `:12-53` and
`backend/src/html/backend.rs:98-104`.

Text is a list of characters; byte offsets enter only through the six-byte
window, measured with the UTF-8 length of the characters.
-/
namespace Verif.Escape

/-- `[0-9]` -/
def isDec (c : Char) : Bool := '0'.val ≤ c.val && c.val ≤ '9'.val

/-- `[0-9a-fA-F]` -/
def isHex (c : Char) : Bool :=
  isDec c || ('a'.val ≤ c.val && c.val ≤ 'f'.val) || ('A'.val ≤ c.val && c.val ≤ 'F'.val)

/-- `p+;` at the start of the text; `seen`: one `p` was there already. -/
def run (p : Char → Bool) (seen : Bool) : List Char → Bool
  | [] => false
  | c :: cs => if p c then run p true cs else c == ';' && seen

/-- `htmlbuf.rs:185-187` the regular expression, at the start of the text. -/
def refHere : List Char → Bool
  | '&' :: '#' :: 'x' :: cs => run isHex false cs
  | '&' :: '#' :: cs => run isDec false cs
  | _ => false

/-- `Regex::is_match`: somewhere in the text. -/
def refSomewhere : List Char → Bool
  | [] => false
  | c :: cs => refHere (c :: cs) || refSomewhere cs

/-- `src.get(pos..src.len().min(pos + n))` for the text from `pos` on: `None`
when the end falls inside a character. -/
def window : Nat → List Char → Option (List Char)
  | _, [] => some []
  | 0, _ => some []
  | n + 1, c :: cs => if c.utf8Size ≤ n + 1 then (window (n + 1 - c.utf8Size) cs).map (c :: ·) else none

/-- `htmlbuf.rs:155-162`: what is pushed for an `&` before `#`; `rest` starts
with it. -/
def ampHash (rest : List Char) : List Char :=
  match window 6 rest with
  | none => []
  | some w => if refSomewhere w then ['&'] else "&amp;".toList

/-- `htmlbuf.rs:150-173` `push_escaped`, one character with the text from it on. -/
def escChar (quotes : Bool) (c : Char) (cs : List Char) : List Char :=
  if c = '&' then (if cs.head? = some '#' then ampHash (c :: cs) else "&amp;".toList)
  else if c = '<' then "&lt;".toList
  else if c = '>' then "&gt;".toList
  else if c = '"' ∧ quotes = true then "&quot;".toList
  else if c = '\'' ∧ quotes = true then "&#8217;".toList
  else [c]

/-- `htmlbuf.rs:150-173` `push_escaped`. -/
def escape (quotes : Bool) : List Char → List Char
  | [] => []
  | c :: cs => escChar quotes c cs ++ escape quotes cs

/-- `htmlbuf.rs:175-183` `push_url_encoded`. -/
def urlEncode : List Char → List Char
  | [] => []
  | c :: cs => (if c = ' ' then "%20".toList else if c = ',' then "%2C".toList else [c]) ++ urlEncode cs

/-- `htmlbuf.rs:35-39` `push_html_attr`. -/
def attr (name value : List Char) : List Char :=
  ' ' :: name ++ "=\"".toList ++ escape true value ++ ['"']

end Verif.Escape

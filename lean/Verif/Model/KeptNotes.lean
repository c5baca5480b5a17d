/-!
Model of footnotes that are kept in an attribute in a pass macro (`:fn: pass:q[footnote:id[text]]`) and then referenced:
`parser/src/tasks/parse_inlines/mod.rs:46-76,164-190,382-387`, with `core/src/regx.rs:20-21` for which values are marked.

Tokens are those of a paragraph with attribute references replaced. Simplifications: a footnote macro with its target and bracket is one token, as is
the mark of a kept value with its substitutions and bracket (`AttrPassDbl`); everything else is text; escapes and other macros are left out. A panic
(`expect`, `assert!`) is an error.
-/
namespace Verif.KeptNotes

/-- substitutions: which ones, and whether macros are among them -/
structure Subs where
  which : Nat
  macros : Bool
deriving DecidableEq, Repr

inductive Tok where
  /-- `\x1Bass:subs[` -/
  | kept (s : Subs)
  /-- `footnote:id[` -/
  | foot (id : Nat)
  /-- `]` -/
  | close
  | text (n : Nat)
deriving DecidableEq, Repr

/-- `parse_context.rs` `subs` and `attr_pass_subs` -/
structure Ctx where
  subs : Subs
  pass : Option Subs
deriving DecidableEq, Repr

/-- what comes of it, in reading order: text with the substitutions it gets, and where footnotes begin and end -/
inductive Ev where
  | text (n : Nat) (s : Subs)
  | bracket (s : Subs)
  /-- a footnote macro that is left as text -/
  | word (id : Nat) (s : Subs)
  | note (id : Nat)
  | shut
deriving DecidableEq, Repr

inductive Stop where
  | panic
  | fuel
deriving DecidableEq, Repr

/-- `mod.rs:46-76,164-190,382-387` — `parse_inlines_until`, with or without the stop token `]`; `s` are the substitutions when it was called. The
number bounds steps. -/
def run : Nat → Subs → Bool → Ctx → List Tok → Except Stop (List Ev × Ctx × List Tok)
  | 0, _, _, _, _ => .error .fuel
  | _ + 1, _, _, c, [] => .ok ([], c, [])
  | n + 1, s, stop, c, .close :: ts =>
    if stop then .ok ([], c, ts)
    else (run n s stop c ts).map fun r => (.bracket s :: r.1, r.2)
  | n + 1, s, stop, c, .text k :: ts => (run n s stop c ts).map fun r => (.text k s :: r.1, r.2)
  | n + 1, s, stop, c, .kept p :: ts => run n s stop { c with pass := some p } ts
  | n + 1, s, stop, c, .foot id :: ts =>
    if s.macros then
      match run n (c.pass.getD c.subs) true { c with subs := c.pass.getD c.subs } ts with
      | .error e => .error e
      | .ok (evs, c1, ts1) =>
        if c1.pass.isSome then
          match ts1 with
          | .close :: ts2 =>
            (run n s stop { subs := c.subs, pass := none } ts2).map fun r => (.note id :: evs ++ .shut :: r.1, r.2)
          | _ => .error .panic
        else (run n s stop c1 ts1).map fun r => (.note id :: evs ++ .shut :: r.1, r.2)
    else (run n s stop c ts).map fun r => (.word id s :: r.1, r.2)

/-- `mod.rs` `parse_inlines`: the text of a block -/
def parse (c : Ctx) (ts : List Tok) : Except Stop (List Ev × Ctx × List Tok) := run (ts.length + 1) c.subs false c ts

end Verif.KeptNotes

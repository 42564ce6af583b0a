import Verif.Token
/-!
Model of `#pragma pack` (src/parser/parser.c:13-87).
-/
namespace Verif.PragmaPack
open Verif

/-- The tokens the directive looks at: identifiers, numbers (with the value
`constant_from_string` gives them, C15; `none` if it is not an integer), punctuators. -/
inductive PTok where
  | ident (s : Str)
  | num (v : Option Int)
  | lpar | rpar | comma | other
  deriving DecidableEq, Repr

/-- src/parser/parser.c:13-15: `packs[0 .. pack_size)`, last first, and `current_packing`. -/
structure St where
  packs : List Int := []
  current : Int := 0
  deriving DecidableEq, Repr

/-- `TEXPECT`. -/
def expect (t : PTok) : List PTok → Res (List PTok)
  | u :: ts => if u = t then .ok ts else .fail
  | [] => .fail

/-- parser.c:65-76: an optional number, `)`, and the assignment.  The value is converted from
`intmax_t` to `int`. -/
def finish (s : St) (ts : List PTok) : Res (St × List PTok) := do
  match ts with
  | .num none :: _ => .fail
  | .num (some v) :: ts => do
    let ts ← expect .rpar ts
    pure ({ s with current := (BitVec.ofInt 32 v).toInt }, ts)
  | ts => do
    let ts ← expect .rpar ts
    pure ({ s with current := 0 }, ts)

/-- parser.c:40-76, after `pack`. -/
def pack (s : St) (ts : List PTok) : Res (St × List PTok) := do
  let ts ← expect .lpar ts
  match ts with
  | .ident n :: ts =>
    if n = str "pop" then do
      -- 47-48: the saved value is dropped, `current_packing` keeps its value
      let s := { s with packs := s.packs.tail }
      let ts ← expect .rpar ts
      pure (s, ts)
    else if n = str "push" then do
      let s := { s with packs := s.current :: s.packs }
      match ts with
      | .comma :: ts => finish s ts
      | ts => do
        let ts ← expect .rpar ts
        pure (s, ts)
    else .fail
  | ts => finish s ts

/-- A sequence of directives, each with its tokens after `pack`. -/
def run : List (List PTok) → St → Res St
  | [], s => .ok s
  | d :: ds, s => do
    let (s, _) ← pack s d
    run ds s

end Verif.PragmaPack

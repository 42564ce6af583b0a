import Verif.Asm
import Verif.ObjectSpec
/-!
Independent reader of assembly text: the part of the AT&T syntax of the GNU assembler (Using as, 3
"Syntax", 7 "Assembler Directives", 9.16.3 "AT&T Syntax versus Intel Syntax") that a compiler needs.
The names of the registers are those of the Intel manual, volume 1, 3.4.1.1.  Symbols stay names.
-/
namespace Verif.AsmTextSpec
open Verif
open Verif.Asm (Reg)
open Verif.ObjectSpec (Call View view quadBytes)

/-- A text, or a part of it. -/
abbrev Txt := List Byte

/-- The bytes of an ASCII string. -/
def txt (s : String) : Txt := s.toList.map ch

/-- An operand; symbols are names. -/
inductive Operand where
  | reg (r : Reg) (size : Nat)
  | xmm (i : Nat)
  | star (r : Reg)
  | imm (sym : Option Txt) (v : Int)
  | abs (sym : Option Txt) (v : Int)
  | mem (off : Int) (base : Reg)
  deriving DecidableEq, Repr

/-- A statement. -/
inductive Stmt where
  | section (name : Txt)
  | global (sym : Txt)
  | label (sym : Txt)
  | string (bs : List Byte)
  | quad (sym : Option Txt) (v : Int)
  | byte (v : Int)
  | zero (n : Nat)
  | align (n : Nat)
  | ins (mnemonic : Txt) (ops : List Operand)
  deriving DecidableEq, Repr

/-! ### Characters and numbers -/

/-- A decimal digit. -/
def isDigit (b : Byte) : Bool := 48 ≤ b.toNat && b.toNat ≤ 57
/-- An octal digit. -/
def isOct (b : Byte) : Bool := 48 ≤ b.toNat && b.toNat ≤ 55
/-- Whitespace inside a line. -/
def isBlank (b : Byte) : Bool := b == ch ' ' || b == ch '\t'
/-- A character of a symbol. -/
def isSymChar (b : Byte) : Bool :=
  (65 ≤ b.toNat && b.toNat ≤ 90) || (97 ≤ b.toNat && b.toNat ≤ 122) || isDigit b || b == ch '_' || b == ch '.' ||
    b == ch '$' || 128 ≤ b.toNat

/-- A symbol: its characters are symbol characters and the first is no digit. -/
def isSym : Txt → Bool
  | [] => false
  | c :: cs => !isDigit c && (c :: cs).all isSymChar

/-- A number without a sign. -/
def readNat (t : Txt) : Option Nat :=
  if t ≠ [] ∧ t.all isDigit then some (t.foldl (fun n d => n * 10 + (d.toNat - 48)) 0) else none

/-- A number with or without a minus sign. -/
def readInt : Txt → Option Int
  | [] => none
  | c :: cs => if c = ch '-' then (readNat cs).map (fun n : Nat => -(Int.ofNat n)) else (readNat (c :: cs)).map Int.ofNat

/-- An expression: a number, a symbol, or a symbol plus a number. -/
def readExpr (t : Txt) : Option (Option Txt × Int) :=
  match t with
  | [] => none
  | c :: _ =>
    if isDigit c ∨ c = ch '-' then (readInt t).map fun v => (none, v)
    else
      let s := t.takeWhile (· ≠ ch '+')
      if isSym s then
        match t.dropWhile (· ≠ ch '+') with
        | [] => some (some s, 0)
        | _ :: n => (readInt n).map fun v => (some s, v)
      else none

/-! ### Operands -/

/-- The general registers (Intel manual, volume 1, 3.4.1.1, table 3-2). -/
def regTable : List (String × Reg × Nat) := [
  ("rax", .rax, 8), ("rbx", .rbx, 8), ("rcx", .rcx, 8), ("rdx", .rdx, 8), ("rsi", .rsi, 8), ("rdi", .rdi, 8),
  ("rbp", .rbp, 8), ("rsp", .rsp, 8), ("r8", .r8, 8), ("r9", .r9, 8), ("r10", .r10, 8), ("r11", .r11, 8),
  ("r12", .r12, 8), ("r13", .r13, 8), ("r14", .r14, 8), ("r15", .r15, 8),
  ("eax", .rax, 4), ("ebx", .rbx, 4), ("ecx", .rcx, 4), ("edx", .rdx, 4), ("esi", .rsi, 4), ("edi", .rdi, 4),
  ("ebp", .rbp, 4), ("esp", .rsp, 4), ("r8d", .r8, 4), ("r9d", .r9, 4), ("r10d", .r10, 4), ("r11d", .r11, 4),
  ("r12d", .r12, 4), ("r13d", .r13, 4), ("r14d", .r14, 4), ("r15d", .r15, 4),
  ("ax", .rax, 2), ("bx", .rbx, 2), ("cx", .rcx, 2), ("dx", .rdx, 2), ("si", .rsi, 2), ("di", .rdi, 2),
  ("bp", .rbp, 2), ("sp", .rsp, 2), ("r8w", .r8, 2), ("r9w", .r9, 2), ("r10w", .r10, 2), ("r11w", .r11, 2),
  ("r12w", .r12, 2), ("r13w", .r13, 2), ("r14w", .r14, 2), ("r15w", .r15, 2),
  ("al", .rax, 1), ("bl", .rbx, 1), ("cl", .rcx, 1), ("dl", .rdx, 1), ("sil", .rsi, 1), ("dil", .rdi, 1),
  ("bpl", .rbp, 1), ("spl", .rsp, 1), ("r8b", .r8, 1), ("r9b", .r9, 1), ("r10b", .r10, 1), ("r11b", .r11, 1),
  ("r12b", .r12, 1), ("r13b", .r13, 1), ("r14b", .r14, 1), ("r15b", .r15, 1)]

/-- A register name after its `%`. -/
def lookupReg (t : Txt) : Option (Reg × Nat) := (regTable.find? fun e => txt e.1 == t).map (·.2)

/-- A 64-bit register with its `%`. -/
def readReg8 : Txt → Option Reg
  | [] => none
  | c :: cs =>
    if c = ch '%' then
      match lookupReg cs with
      | some (r, 8) => some r
      | _ => none
    else none

/-- An operand (Using as, 9.16.3.1: immediates have a `$`, registers a `%`, indirect jumps a `*`; 9.16.7:
a memory operand is `displacement(base)`). -/
def readOperand (t : Txt) : Option Operand :=
  match t with
  | [] => none
  | c :: cs =>
    if c = ch '%' then
      match lookupReg cs with
      | some (r, s) => some (.reg r s)
      | none =>
        if cs.take 3 = txt "xmm" then
          match readNat (cs.drop 3) with
          | some i => if i < 16 then some (.xmm i) else none
          | none => none
        else none
    else if c = ch '*' then (readReg8 cs).map .star
    else if c = ch '$' then (readExpr cs).map fun e => .imm e.1 e.2
    else if ch '(' ∈ t then
      let disp := t.takeWhile (· ≠ ch '(')
      let rest := (t.dropWhile (· ≠ ch '(')).drop 1
      if rest.getLast? = some (ch ')') then
        match readReg8 rest.dropLast, (if disp = [] then some 0 else readInt disp) with
        | some r, some d => some (.mem d r)
        | _, _ => none
      else none
    else (readExpr t).map fun e => .abs e.1 e.2

/-- The pieces between the bytes `c`. -/
def splitOn (c : Byte) : Txt → List Txt
  | [] => [[]]
  | b :: bs =>
    if b = c then [] :: splitOn c bs
    else
      match splitOn c bs with
      | [] => [[b]]
      | p :: ps => (b :: p) :: ps

/-- All results, or none. -/
def all {α β : Type} (f : α → Option β) : List α → Option (List β)
  | [] => some []
  | x :: xs =>
    match f x, all f xs with
    | some y, some ys => some (y :: ys)
    | _, _ => none

/-- Operands between commas; blanks around do not count. -/
def readOperands (t : Txt) : Option (List Operand) :=
  if t = [] then some []
  else all (fun p => readOperand (p.dropWhile isBlank)) (splitOn (ch ',') t)

/-! ### Strings (Using as, 3.6.1.1) -/

/-- An escape letter. -/
def escape (c : Byte) : Option Byte :=
  if c = ch 'b' then some 8
  else if c = ch 'f' then some 12
  else if c = ch 'n' then some 10
  else if c = ch 'r' then some 13
  else if c = ch 't' then some 9
  else if c = ch '\\' then some 92
  else if c = ch '"' then some 34
  else none

/-- The value of octal digits, in one byte. -/
def octal (ds : List Byte) : Byte := BitVec.ofNat 8 (ds.foldl (fun n d => n * 8 + (d.toNat - 48)) 0)

/-- The rest of a string after its opening quote, up to a closing quote at the end of the line. -/
def readString : Txt → Option (List Byte)
  | [] => none
  | [c] => if c = ch '"' then some [] else none
  | c :: d :: rest =>
    if c = ch '"' then none
    else if c ≠ ch '\\' then (readString (d :: rest)).map (c :: ·)
    else if isOct d then
      match rest with
      | [] => none
      | e :: rest1 =>
        if isOct e then
          match rest1 with
          | [] => none
          | f :: rest2 =>
            if isOct f then (readString rest2).map (octal [d, e, f] :: ·)
            else (readString (f :: rest2)).map (octal [d, e] :: ·)
        else (readString (e :: rest1)).map (octal [d] :: ·)
    else
      match escape d with
      | some b => (readString rest).map (b :: ·)
      | none => none

/-! ### Statements -/

/-- A statement with the first word `w` and the rest `args`: a label, a directive, or an instruction. -/
def readStmt (w args : Txt) : Option Stmt :=
  if w.getLast? = some (ch ':') then
    if isSym w.dropLast ∧ args = [] then some (.label w.dropLast) else none
  else if w = txt ".section" then if isSym args then some (.section args) else none
  else if w = txt ".global" then if isSym args then some (.global args) else none
  else if w = txt ".string" then
    match args with
    | [] => none
    | q :: s => if q = ch '"' then (readString s).map .string else none
  else if w = txt ".quad" then (readExpr args).map fun e => .quad e.1 e.2
  else if w = txt ".byte" then (readInt args).map .byte
  else if w = txt ".zero" then (readNat args).map .zero
  else if w = txt ".align" then (readNat args).map .align
  else (readOperands args).map (.ins w)

/-- A line: empty, a comment, or a statement. -/
def readLine (line : Txt) : Option (List Stmt) :=
  let t := line.dropWhile isBlank
  match t with
  | [] => some []
  | c :: _ =>
    if c = ch '#' then some []
    else
      (readStmt (t.takeWhile fun b => !isBlank b) ((t.dropWhile fun b => !isBlank b).dropWhile isBlank)).map fun s => [s]

/-- A text: lines that all end with a newline. -/
def readText (t : Txt) : Option (List Stmt) :=
  let ls := splitOn (ch '\n') t
  if ls.getLast? = some [] then (all readLine ls.dropLast).map List.flatten else none

/-! ### Placement -/

/-- The statements with the section that each is in; the first section is `.text` (Using as, 4.1). -/
def placeIn : Txt → List Stmt → List (Txt × Stmt)
  | _, [] => []
  | cur, s :: ss =>
    match s with
    | .section n => placeIn n ss
    | s => (cur, s) :: placeIn cur ss

def place (ss : List Stmt) : List (Txt × Stmt) := placeIn (txt ".text") ss

/-! ### What the text assembles to -/

/-- The symbols made global; a `.global` holds for the whole text (Using as, 7.39). -/
def globals (ss : List Stmt) : List Txt :=
  ss.filterMap fun s =>
    match s with
    | .global n => some n
    | _ => none

/-- What a statement puts into the object; `enc` encodes instructions. -/
def stmtCalls (enc : Txt → List Operand → List Call) (gs : List Txt) : Stmt → List Call
  | .section n => [.sect n]
  | .global _ => []
  | .label n => [.define n (gs.contains n)]
  | .string bs => [.emit (bs ++ [0])]
  | .quad none v => [.emit (quadBytes (BitVec.ofInt 64 v))]
  | .quad (some n) v => [.refer ⟨.r64, n, 0, BitVec.ofInt 64 v⟩, .emit (List.replicate 8 0)]
  | .byte v => [.emit [BitVec.ofInt 8 v]]
  | .zero n => [.emit (List.replicate n 0)]
  | .align n => [.align n]
  | .ins m ops => enc m ops

/-- What a text puts into the object. -/
def assembled (enc : Txt → List Operand → List Call) (ss : List Stmt) : View :=
  view ((ss.map (stmtCalls enc (globals ss))).flatten)

end Verif.AsmTextSpec

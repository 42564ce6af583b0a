import Verif.Token
/-!
Model of src/parser/symbols.c: the scoped symbol table.  The dynamic array is a function
from indices, with `size`; a link or bucket of -1 is `none`.  The data attached to an entry
(a pointer, or a type) is a number.  `hash_entry (id) % hash_table.size` is an arbitrary
function `h`.
-/
namespace Verif.Symbols
open Verif

/-- symbols.c:13-17 -/
inductive Space where
  | typedef | struct | identifier
  deriving DecidableEq, Repr, Inhabited

/-- symbols.c:12-19 `struct entry_id`; compared by 49-51. -/
abbrev Id := Space × Str

/-- symbols.c:21-31 `struct table_entry` -/
structure Entry where
  id : Id
  data : Nat
  block : Nat
  link : Option Nat

/-- symbols.c:33-43: `table`, `hash_table`, `current_block`. -/
structure St where
  tab : Nat → Entry
  size : Nat
  ht : Nat → Option Nat
  cur : Nat

/-- symbols.c:246-251 `symbols_init`, with `current_block` 0 and an empty table (whose memory
holds anything). -/
def init (mem : Nat → Entry) : St := ⟨mem, 0, fun _ => none, 0⟩

/-- Assignment to one element. -/
def set {α : Type} (f : Nat → α) (i : Nat) (v : α) : Nat → α := fun j => if j = i then v else f j

/-- symbols.c:53-55 `symbols_push_scope` -/
def push (s : St) : St := { s with cur := s.cur + 1 }

/-- The loop 59-68 of `symbols_pop_scope` with `i + 1` elements left to look at. -/
def popLoop (h : Id → Nat) (cur : Nat) : Nat → St → St
  | 0, s => s
  | i + 1, s =>
    let entry := s.tab i
    if entry.block ≤ cur then s
    else popLoop h cur i { s with ht := set s.ht (h entry.id) entry.link, size := i }

/-- symbols.c:57-69 `symbols_pop_scope`. Called only after a push (the counter is not meant
to become negative): otherwise `fail`. -/
def pop (h : Id → Nat) (s : St) : Res St :=
  match s.cur with
  | 0 => .fail
  | c + 1 => .ok (popLoop h c s.size { s with cur := c })

/-- The loop 75-82; reading outside the table is undefined. `fuel` bounds the length of the
chain; too little fuel is reported as undefined, too. -/
def getLoop (s : St) (id : Id) (globalOnly : Bool) : Nat → Option Nat → Res (Option Nat)
  | _, none => .ok none
  | 0, some _ => .ub
  | fuel + 1, some i =>
    if i < s.size then
      let entry := s.tab i
      if entry.id = id ∧ ¬ (globalOnly = true ∧ entry.block ≠ 0) then .ok (some i)
      else getLoop s id globalOnly fuel entry.link
    else .ub

/-- symbols.c:71-85 `get_entry`: the index of the entry. -/
def getEntry (h : Id → Nat) (s : St) (id : Id) (globalOnly : Bool) : Res (Option Nat) :=
  getLoop s id globalOnly s.size (s.ht (h id))

/-- The loop 92-108 with `i + 1 = k`; result: the state and the position `i + 1` (109). -/
def shiftLoop (h : Id → Nat) (block : Nat) : Nat → St → St × Nat
  | 0, s => (s, 0)
  | i + 1, s =>
    let entry := s.tab i
    if entry.block > block then
      let hash := h entry.id
      let ht := if s.ht hash = some i then set s.ht hash (some (i + 1)) else s.ht
      let entry := match entry.link with
        | some l => if (s.tab l).block > block then { entry with link := some (l + 1) } else entry
        | none => entry
      -- 101 changes the element itself, 104 copies it
      shiftLoop h block i { s with ht := ht, tab := set (set s.tab i entry) (i + 1) entry }
    else (s, i + 1)

/-- Where a link is stored: `&hash_table.entries[b]` or `&table.entries[j].link`. -/
inductive Loc where
  | bucket (b : Nat)
  | entry (j : Nat)

/-- Reading the link. -/
def Loc.read (s : St) : Loc → Option Nat
  | .bucket b => s.ht b
  | .entry j => (s.tab j).link

/-- Writing the link. -/
def Loc.write (s : St) (v : Option Nat) : Loc → St
  | .bucket b => { s with ht := set s.ht b v }
  | .entry j => { s with tab := set s.tab j { s.tab j with link := v } }

/-- The loop 113-116. -/
def walk (s : St) (i : Nat) : Nat → Loc → Res Loc
  | fuel, loc =>
    match loc.read s with
    | none => .ok loc
    | some l =>
      if l > i then
        match fuel with
        | 0 => .ub
        | fuel + 1 => walk s i fuel (.entry l)
      else .ok loc

/-- symbols.c:87-128 `add_entry_with_block`, and the data stored by the caller. -/
def addEntryWithBlock (h : Id → Nat) (s : St) (id : Id) (block data : Nat) : Res St := do
  let (s, i) := shiftLoop h block s.size { s with size := s.size + 1 }
  let loc ← walk s i s.size (.bucket (h id))
  let link := loc.read s
  let s := { s with tab := set s.tab i { id := id, data := data, block := block, link := link } }
  pure (loc.write s (some i))

/-- symbols.c:130-145 `add_entry`, and the data stored by the caller. -/
def addEntry (h : Id → Nat) (s : St) (id : Id) (data : Nat) : St :=
  { s with tab := set s.tab s.size { id := id, data := data, block := s.cur, link := s.ht (h id) }
           size := s.size + 1
           ht := set s.ht (h id) (some s.size) }

/-- symbols.c:148-155 `symbols_add` -/
def add (h : Id → Nat) (s : St) (id : Id) (data : Nat) : Res St := do
  match ← getEntry h s id false with
  | some i => if (s.tab i).block = s.cur then .fail else pure (addEntry h s id data)
  | none => pure (addEntry h s id data)

/-- symbols.c:168-176 `symbols_add_identifier` -/
def addIdentifier (h : Id → Nat) (s : St) (name : Str) (data : Nat) : Res St :=
  if name.length = 0 then .ok s else add h s (.identifier, name) data

/-- symbols.c:188-197 `symbols_add_identifier_global` -/
def addIdentifierGlobal (h : Id → Nat) (s : St) (name : Str) (data : Nat) : Res St := do
  match ← getEntry h s (.identifier, name) true with
  | some i =>
    if (s.tab i).block = s.cur then .fail else addEntryWithBlock h s (.identifier, name) 0 data
  | none => addEntryWithBlock h s (.identifier, name) 0 data

/-- symbols.c:230-238 `symbols_add_typedef`, and the assignment to the entry by the callers
(src/parser/declaration.c:1256). -/
def addTypedef (h : Id → Nat) (s : St) (name : Str) (data : Nat) : Res St := do
  match ← getEntry h s (.typedef, name) false with
  | some i =>
    if (s.tab i).block = s.cur then pure { s with tab := set s.tab i { s.tab i with data := data } }
    else pure (addEntry h s (.typedef, name) data)
  | none => pure (addEntry h s (.typedef, name) data)

/-- symbols.c:157-159, 178-181, 219-222, 240-243: look a name up. -/
def get (h : Id → Nat) (s : St) (id : Id) : Res (Option Nat) := do
  match ← getEntry h s id false with
  | some i => pure (some (s.tab i).data)
  | none => pure none

/-- symbols.c:161-165, 183-186, 224-227: look a name up in the current scope. -/
def getCurrent (h : Id → Nat) (s : St) (id : Id) : Res (Option Nat) := do
  match ← getEntry h s id false with
  | some i => pure (if (s.tab i).block = s.cur then some (s.tab i).data else none)
  | none => pure none

/-- symbols.c:199-202: look an identifier up at file scope. -/
def getGlobal (h : Id → Nat) (s : St) (id : Id) : Res (Option Nat) := do
  match ← getEntry h s id true with
  | some i => pure (some (s.tab i).data)
  | none => pure none

/-- What the parser does to the table. -/
inductive Op where
  | push
  | pop
  | addIdentifier (name : Str) (data : Nat)
  | addStruct (name : Str) (data : Nat)
  | addTypedef (name : Str) (data : Nat)
  | addGlobal (name : Str) (data : Nat)

/-- One operation (`addStruct`: symbols.c:215-217). -/
def step (h : Id → Nat) (s : St) : Op → Res St
  | .push => .ok (push s)
  | .pop => pop h s
  | .addIdentifier n d => addIdentifier h s n d
  | .addStruct n d => add h s (.struct, n) d
  | .addTypedef n d => addTypedef h s n d
  | .addGlobal n d => addIdentifierGlobal h s n d

/-- A history. -/
def run (h : Id → Nat) : List Op → St → Res St
  | [], s => .ok s
  | o :: os, s => do run h os (← step h s o)

end Verif.Symbols

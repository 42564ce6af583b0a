import Verif.Input
/-!
What `#include` has to find (C17 6.10.2; the search order is the usual one of Unix compilers).
-/
namespace Verif.InputSpec
open Verif Input

/-- `d` is the directory part of the path: everything up to the last slash. -/
def Directory (path d : Str) : Prop := ∃ name, path = d ++ name ∧ ch '/' ∉ name ∧ (d = [] ∨ ∃ d', d = d' ++ [ch '/'])

/-- The places at which a file is searched: beside the including file, whose directory is `d`, if the name is in quotes, then in the include
paths in their order. -/
def places (d : Str) (includes : List Str) (name : Str) (system : Bool) : List Str :=
  (if system then [] else [d ++ name]) ++ includes.map fun p => p ++ str "/" ++ name

/-- The first place at which there is a file. -/
def FirstOf (fs : Fs) (ps : List Str) (p : Str) (c : List Byte) : Prop :=
  ∃ before after, ps = before ++ p :: after ∧ fs p = .file c ∧ ∀ q ∈ before, fs q = .missing

/-- The path of the file that is being read. -/
def current (st : St) : Option Str := st.files.head?.map (·.1)

/-- `#pragma once` has been seen in the file with this path. -/
def Marked (fs : Fs) (st0 : St) (es : List Ev) (p : Str) : Prop :=
  ∃ a b st, es = a ++ .once :: b ∧ run fs a st0 = .ok st ∧ current st = some p

end Verif.InputSpec

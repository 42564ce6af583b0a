import Verif.Specifiers
/-!
C17 6.7.2p2 (type specifiers) and 6.7.3p5 (repeated qualifiers).
-/
namespace Verif.Specifiers
open Verif Simple

/-- The multisets of 6.7.2p2 that consist of keywords. -/
def allowed : List (ST × List TType) :=
  [(.void, [.T_KVOID]),
   (.char, [.T_KCHAR]),
   (.schar, [.T_KSIGNED, .T_KCHAR]),
   (.uchar, [.T_KUNSIGNED, .T_KCHAR]),
   (.short, [.T_KSHORT]), (.short, [.T_KSIGNED, .T_KSHORT]), (.short, [.T_KSHORT, .T_KINT]), (.short, [.T_KSIGNED, .T_KSHORT, .T_KINT]),
   (.ushort, [.T_KUNSIGNED, .T_KSHORT]), (.ushort, [.T_KUNSIGNED, .T_KSHORT, .T_KINT]),
   (.int, [.T_KINT]), (.int, [.T_KSIGNED]), (.int, [.T_KSIGNED, .T_KINT]),
   (.uint, [.T_KUNSIGNED]), (.uint, [.T_KUNSIGNED, .T_KINT]),
   (.long, [.T_KLONG]), (.long, [.T_KSIGNED, .T_KLONG]), (.long, [.T_KLONG, .T_KINT]), (.long, [.T_KSIGNED, .T_KLONG, .T_KINT]),
   (.ulong, [.T_KUNSIGNED, .T_KLONG]), (.ulong, [.T_KUNSIGNED, .T_KLONG, .T_KINT]),
   (.llong, [.T_KLONG, .T_KLONG]), (.llong, [.T_KSIGNED, .T_KLONG, .T_KLONG]), (.llong, [.T_KLONG, .T_KLONG, .T_KINT]),
   (.llong, [.T_KSIGNED, .T_KLONG, .T_KLONG, .T_KINT]),
   (.ullong, [.T_KUNSIGNED, .T_KLONG, .T_KLONG]), (.ullong, [.T_KUNSIGNED, .T_KLONG, .T_KLONG, .T_KINT]),
   (.float, [.T_KFLOAT]), (.double, [.T_KDOUBLE]), (.ldouble, [.T_KLONG, .T_KDOUBLE]),
   (.bool, [.T_KBOOL]),
   (.floatC, [.T_KFLOAT, .T_KCOMPLEX]), (.doubleC, [.T_KDOUBLE, .T_KCOMPLEX]), (.ldoubleC, [.T_KLONG, .T_KDOUBLE, .T_KCOMPLEX])]

/-- The type-specifier keywords. -/
def typeKeywords : List TType :=
  [.T_KVOID, .T_KCHAR, .T_KSHORT, .T_KINT, .T_KLONG, .T_KFLOAT, .T_KDOUBLE, .T_KSIGNED, .T_KUNSIGNED, .T_KBOOL, .T_KCOMPLEX]

/-- The other declaration-specifier keywords (6.7p1). -/
def otherKeywords : List TType :=
  [.T_KTYPEDEF, .T_KEXTERN, .T_KSTATIC, .T_KTHREAD_LOCAL, .T_KAUTO, .T_KREGISTER,
   .T_KCONST, .T_KRESTRICT, .T_KVOLATILE, .T_KINLINE, .T_KNORETURN]

/-- The specifiers of a declaration: keywords, up to a token that is not one. -/
structure IsSpecifiers (ks rest : List TType) : Prop where
  all : ∀ t ∈ ks, t ∈ typeKeywords ∨ t ∈ otherKeywords
  stop : ∀ t, rest.head? = some t → t ∉ typeKeywords ∧ t ∉ otherKeywords ∧ t ≠ .T_KATOMIC

/-- The type specifiers among them. -/
def typeSpecifiers (ks : List TType) : List TType := ks.filter (fun t => decide (t ∈ typeKeywords))

end Verif.Specifiers

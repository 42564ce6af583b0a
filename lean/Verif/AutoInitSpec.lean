import Verif.AutoInit
/-!
What C17 6.7.9 says about the initialisation of an object when its declaration is reached.  Of the model the
types with their layout, memory, and the initialisers are used.
-/
namespace Verif.AutoInit
open Verif

/-- Bit `i` of memory. -/
def bit (m : Mem) (i : Nat) : Bool := (m (i / 8)).getLsbD (i % 8)

/-- Bit `i` of some bytes. -/
def bitIn (bs : List Byte) (i : Nat) : Bool := ((bs[i / 8]?).getD 0).getLsbD (i % 8)

/-- What a part of an object gets: the bytes of a string, or the value of an expression of `size` bytes. -/
inductive Src where
  | bytes (bs : List Byte)
  | value (e : Expr) (size : Nat)

/-- A part of an object: `len` bits from bit `pos` of the object on. -/
structure Part where
  pos : Nat
  len : Nat
  src : Src

/-- Where member or element `i` is. -/
inductive Place : Ty → Nat → Nat → Option (Nat × Nat) → Ty → Prop where
  | element {t n i} : t.size * i + t.size ≤ n → Place (.array t n) i (t.size * i) none t
  | member {fs n i o b t} : fs[i]? = some (o, b, -1, t) → o + t.size ≤ n → Place (.record fs n) i o none t
  | field {fs n i} {o b w : Nat} {t} : fs[i]? = some (o, (b : Int), (w : Int), t) → o + t.size ≤ n → 1 ≤ w → b + w ≤ 8 * t.size →
      t.size ≤ 8 → Place (.record fs n) i o (some (b, w)) t

/-- The parts that an initialiser of an object of type `t` at byte `base` names; `bits` says which bits a
bit-field has (6.7.9p14, p17-p20).  `i` is the index of the next entry of a brace. -/
inductive Parts : Ty → Nat → Option (Nat × Nat) → Nat → Init → List Part → Prop where
  | empty {t base b i} : Parts t base b i .empty []
  /-- a string fills as much of its array as there is room for (6.7.9p14) -/
  | string {e n base b i bs} : Parts (.array e n) base b i (.string bs)
      [⟨8 * base, 8 * min bs.length n, .bytes bs⟩]
  | value {t base i e} : Parts t base none i (.expr e) [⟨8 * base, 8 * t.size, .value e t.size⟩]
  | bits {t base o w i e} : Parts t base (some (o, w)) i (.expr e) [⟨8 * base + o, w, .value e t.size⟩]
  | brace {t base b i n ps} : Parts t base b 0 n ps → Parts t base b i (.brace n) ps
  | last {t base b i} : Parts t base b i .last []
  | entry {t base b i o b' u n rest ps qs} : Place t i o b' u → Parts u (base + o) b' 0 n ps →
      Parts t base b (i + 1) rest qs → Parts t base b i (.entry n rest) (ps ++ qs)

/-- No bit belongs to two parts. -/
def Part.Apart (p q : Part) : Prop := p.pos + p.len ≤ q.pos ∨ q.pos + q.len ≤ p.pos

/-- The evaluation of an expression of `size` bytes: its value and memory after it. -/
def Evaluates (e : Expr) (size : Nat) (m : Mem) (bs : List Byte) (m' : Mem) : Prop :=
  bs.length = size ∧ ((∃ a, e m = .ok (m', .pointer a) ∧ bs = fetch m' a size) ∨
    ∃ vs, e m = .ok (m', .node vs) ∧ bs = vs.take size)

/-- The expressions of the parts are evaluated one after the other (the order is free, 6.7.9p23); `m'` is
memory afterwards, without the object; the values of the parts are listed. -/
inductive Values : Mem → List Part → List (Part × List Byte) → Mem → Prop where
  | nil {m} : Values m [] [] m
  | bytes {m p bs ps vs m'} : p.src = .bytes bs → Values m ps vs m' → Values m (p :: ps) ((p, bs) :: vs) m'
  | value {m p e n bs m1 ps vs m'} : p.src = .value e n → Evaluates e n m bs m1 → Values m1 ps vs m' →
      Values m (p :: ps) ((p, bs) :: vs) m'

/-- The object of `size` bytes at `a` is initialised: the rest of memory is `m'`, each part has its value, all
other bits are zero (6.7.9p10, p21). -/
structure Initialised (a size : Nat) (vs : List (Part × List Byte)) (m' r : Mem) : Prop where
  outside : ∀ x, ¬ (a ≤ x ∧ x < a + size) → r x = m' x
  value : ∀ v ∈ vs, ∀ k, k < v.1.len → bit r (8 * a + v.1.pos + k) = bitIn v.2 k
  zero : ∀ i, i < 8 * size → (∀ v ∈ vs, ¬ (v.1.pos ≤ i ∧ i < v.1.pos + v.1.len)) → bit r (8 * a + i) = false

/-- The two memories differ in the object only. -/
def Agree (a size : Nat) (m m' : Mem) : Prop := ∀ x, ¬ (a ≤ x ∧ x < a + size) → m x = m' x

/-- An expression that neither reads nor writes the object. -/
def Independent (a size : Nat) (e : Expr) (n : Nat) : Prop :=
  ∀ m1 m2 bs m1', Agree a size m1 m2 → Evaluates e n m1 bs m1' →
    ∃ m2', Evaluates e n m2 bs m2' ∧ Agree a size m1' m2' ∧ ∀ x, a ≤ x → x < a + size → m2' x = m2 x

/-- The node of an expression has the size of its type.  That of a comparison of eight byte operands has not
(C73). -/
def Sized (e : Expr) (n : Nat) : Prop := ∀ m m' bs, e m = .ok (m', .node bs) → bs.length = n

/-- No string is longer than its array. -/
def Part.Short (p : Part) : Prop := ∀ bs, p.src = .bytes bs → 8 * bs.length = p.len

end Verif.AutoInit

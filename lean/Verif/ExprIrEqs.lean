import Verif.ExprIrVal
/-!
Lemmas for C92: `evaluate`, by the kind of the expression.
-/
namespace Verif.ExprIr
open Verif
open Verif.Simple hiding Promoted
open Verif.Codegen (IrOp irFromTypeAndOp irBinaryOp)

variable (d : Decls) (st : St)

theorem ev_const (t : ST) (x : Nat) :
    d.evaluate (.const t x) st = .ok (⟨.simple t, false, .const (Simple.sizeOf .sysv t) x⟩, st) := by
  rw [Decls.evaluate, Decls.kind]; rfl

theorem ev_sym (x : Nat) : d.evaluate (.sym x) st = .ok (⟨d.vars x, true, .ptr x⟩, st) := by
  rw [Decls.evaluate, Decls.kind]; rfl

theorem ev_deref_var {a : TE} {r : EV} {st1 : St} {n : Nat} (h : d.evaluate a st = .ok (r, st1)) (hr : r.ee = .var n) :
    d.evaluate (.deref a) st = .ok (⟨d.tyOf (.deref a), true, .ptr n⟩, st1) := by
  rw [Decls.evaluate, Decls.kind, h]; simp only [Res.bind_ok, hr]

theorem ev_deref_ptr {a : TE} {r : EV} {st1 : St} {p : Nat} (h : d.evaluate a st = .ok (r, st1)) (hr : r.ee = .ptr p) :
    d.evaluate (.deref a) st = .ok (⟨d.tyOf (.deref a), true, .ptr st1.next⟩, (emit st1 8 (fun k => .load k p 8)).2) := by
  rw [Decls.evaluate, Decls.kind, h]; simp only [Res.bind_ok, hr]; rfl

theorem ev_call {f args : TE} {c : EV} {st1 st2 st3 : St} {s : Nat} {as : List EV} {ee : EE}
    (h : d.evaluate f st = .ok (c, st1)) (hc : c.ty = .ptr (.func s)) (h2 : d.arguments (d.sigs s).params args st1 = .ok (as, st2))
    (h3 : d.callIr c as st2 = .ok (ee, st3)) :
    d.evaluate (.call f args) st = .ok (⟨d.tyOf (.call f args), false, ee⟩, st3) := by
  rw [Decls.evaluate, Decls.kind, h]; simp only [Res.bind_ok, hc, h2, h3]

theorem ev_ptrArith {sub : Bool} {a b : TE} {p i : EV} {st1 st2 st3 : St} {o r : Nat}
    (h1 : d.evaluate a st = .ok (p, st1)) (h2 : d.evaluate b st1 = .ok (i, st2))
    (h3 : d.pointerStep sub p i st2 = .ok (o, r, st3)) :
    d.evaluate (.ptrArith sub a b) st = .ok (⟨d.tyOf a, false, .var r⟩, st3) := by
  rw [Decls.evaluate, Decls.kind, h1]; simp only [Res.bind_ok, h2, h3]; rfl

theorem ev_ptrDiff {a b : TE} {l r : EV} {st1 st2 st3 st4 st5 : St} {lv rv s : Nat}
    (h1 : d.evaluate a st = .ok (l, st1)) (h2 : d.evaluate b st1 = .ok (r, st2))
    (h3 : d.toVar l st2 = .ok (lv, st3)) (h4 : d.toVar r st3 = .ok (rv, st4))
    (h5 : d.toVar (d.sizeEV (d.tyOf a).target) st4 = .ok (s, st5)) :
    d.evaluate (.ptrDiff a b) st = .ok (⟨.simple .long, false, .var (st5.next + 1)⟩,
      (emit (emit st5 (st5.size lv) (fun k => .op k .sub lv rv (st5.size lv))).2 (st5.size lv)
        (fun k => .op k .idiv st5.next s (st5.size lv))).2) := by
  have hs := emit_size st5 (st5.size lv) (fun k => .op k .sub lv rv (st5.size lv))
  rw [Decls.evaluate, Decls.kind, h1]
  simp only [Res.bind_ok, h2, h3, h4, h5, emit_fst, hs]
  rfl

theorem ev_member {a : TE} {i : Nat} {l : EV} {st1 st2 st3 : St} {f : Field} {p q : Nat}
    (h1 : d.evaluate a st = .ok (l, st1)) (hf : d.field l.ty i = some f) (h2 : d.toAddress l st1 = .ok (p, st2))
    (h3 : getOffset st2 p f.offset = (q, st3)) (hb : f.bits = none) :
    d.evaluate (.member a i) st = .ok (⟨d.tyOf (.member a i), l.lv, .ptr q⟩, st3) := by
  rw [Decls.evaluate, Decls.kind, h1]; simp only [Res.bind_ok, hf, h2, h3, hb]

theorem ev_member_bits {a : TE} {i : Nat} {l : EV} {st1 st2 st3 : St} {f : Field} {p q o n : Nat} {s : ST} {sgn : Bool}
    (h1 : d.evaluate a st = .ok (l, st1)) (hf : d.field l.ty i = some f) (h2 : d.toAddress l st1 = .ok (p, st2))
    (h3 : getOffset st2 p f.offset = (q, st3)) (hb : f.bits = some (o, n)) (hs : f.ty = .simple s) (hg : isSigned s = .ok sgn) :
    d.evaluate (.member a i) st = .ok (⟨d.tyOf (.member a i), l.lv, .bits q o n sgn⟩, st3) := by
  rw [Decls.evaluate, Decls.kind, h1]; simp only [Res.bind_ok, hf, h2, h3, hb, hs, hg]

theorem ev_cast {t : Ty} {a : TE} {r r' : EV} {st1 st2 : St} (h1 : d.evaluate a st = .ok (r, st1))
    (h2 : d.castEV r t st1 = .ok (r', st2)) : d.evaluate (.cast t a) st = .ok (⟨t, r'.lv, r'.ee⟩, st2) := by
  rw [Decls.evaluate, Decls.kind, h1]; simp only [Res.bind_ok, h2]; rfl

theorem ev_addr {a : TE} {r : EV} {st1 : St} {p : Nat} (h1 : d.evaluate a st = .ok (r, st1)) (hr : r.ee = .ptr p) :
    d.evaluate (.addr a) st = .ok (⟨.ptr (d.tyOf a), false, .var p⟩, st1) := by
  rw [Decls.evaluate, Decls.kind, h1]; simp only [Res.bind_ok, hr]; rfl

theorem ev_decay {a : TE} {r : EV} {st1 : St} {p : Nat} (h1 : d.evaluate a st = .ok (r, st1)) (hr : r.ee = .ptr p) :
    d.evaluate (.decay a) st = .ok (⟨d.tyOf (.decay a), false, .var p⟩, st1) := by
  rw [Decls.evaluate, Decls.kind, h1]; simp only [Res.bind_ok, hr]

theorem ev_bin {op : Op} {a b : TE} {l r : EV} {st1 st2 st3 st4 : St} {lv rv : Nat} {s : Option ST} {o : IrOp}
    (h1 : d.evaluate a st = .ok (l, st1)) (h2 : d.evaluate b st1 = .ok (r, st2))
    (h3 : d.toVar l st2 = .ok (lv, st3)) (h4 : d.toVar r st3 = .ok (rv, st4))
    (h5 : (d.tyOf a).scalar = .ok s) (h6 : irFromTypeAndOp s op = .ok o) :
    d.evaluate (.bin op a b) st =
      .ok (⟨d.tyOf (.bin op a b), false, .var st4.next⟩, (emit st4 (st4.size lv) (fun k => .op k (irBinaryOp o) lv rv (st4.size lv))).2) := by
  rw [Decls.evaluate, Decls.kind, h1]; simp only [Res.bind_ok, h2, h3, h4, h5, h6]; rfl

theorem ev_plus {a : TE} {r : EV} {st1 : St} (h1 : d.evaluate a st = .ok (r, st1)) :
    d.evaluate (.un .plus a) st = .ok (⟨d.tyOf a, r.lv, r.ee⟩, st1) := by
  rw [Decls.evaluate, Decls.kind, h1]; simp only [Res.bind_ok, if_true]; rfl

theorem ev_bnot {a : TE} {r : EV} {st1 st2 : St} {v : Nat} (h1 : d.evaluate a st = .ok (r, st1))
    (h2 : d.toVar r st1 = .ok (v, st2)) (h3 : (d.tyOf a).isInt = true) :
    d.evaluate (.un .bnot a) st = .ok (⟨d.tyOf a, false, .var st2.next⟩, (emit st2 (st2.size v) (fun k => .bnot k v (st2.size v))).2) := by
  rw [Decls.evaluate, Decls.kind, h1]; simp only [Res.bind_ok, h2, h3, if_true]; rfl

theorem ev_neg {a : TE} {r : EV} {st1 st2 : St} {v : Nat} (h1 : d.evaluate a st = .ok (r, st1))
    (h2 : d.toVar r st1 = .ok (v, st2)) (h3 : (d.tyOf a).isInt = true) :
    d.evaluate (.un .neg a) st = .ok (⟨d.tyOf a, false, .var st2.next⟩, (emit st2 (st2.size v) (fun k => .neg k v (st2.size v))).2) := by
  rw [Decls.evaluate, Decls.kind, h1]; simp only [Res.bind_ok, h2, h3, if_true]; rfl

theorem ev_assign {a b : TE} {l r r' : EV} {st1 st2 st3 st4 : St}
    (h1 : d.evaluate a st = .ok (l, st1)) (h2 : d.evaluate b st1 = .ok (r, st2))
    (h3 : d.castEV r (d.tyOf a) st2 = .ok (r', st3)) (hl : l.lv = true) (h4 : d.assignEE l r' st3 = .ok st4) :
    d.evaluate (.assign a b) st = .ok (⟨d.tyOf a, r'.lv, r'.ee⟩, st4) := by
  rw [Decls.evaluate, Decls.kind, h1]; simp only [Res.bind_ok, h2, h3, hl, h4, if_true]; rfl

theorem ev_assignOp {op : Op} {post : Bool} {a b : TE} {l r : EV} {st1 st2 st3 st4 st5 st6 st7 : St} {s : Option ST} {o : IrOp}
    {lv rv x z : Nat} (h1 : d.evaluate a st = .ok (l, st1)) (h2 : d.evaluate b st1 = .ok (r, st2))
    (h3 : (d.tyOf b).scalar = .ok s) (h4 : irFromTypeAndOp s op = .ok o)
    (h5 : d.toVar l st2 = .ok (lv, st3)) (h6 : d.toVar r st3 = .ok (rv, st4))
    (h7 : d.castVar lv l.ty (d.tyOf b) st4 = (x, st5))
    (h8 : d.castVar st5.next (d.tyOf b) l.ty (emit st5 (st5.size x) (fun k => .op k (irBinaryOp o) x rv (st5.size x))).2 = (z, st6))
    (h9 : assignTo l z st6 = .ok st7) :
    d.evaluate (.assignOp op post a b) st = .ok (⟨d.tyOf a, false, .var (if post then lv else z)⟩, st7) := by
  rw [Decls.evaluate, Decls.kind, h1]
  simp only [Res.bind_ok, h2, h3, h4, h5, h6, h7, binaryOp, emit_fst, h8, h9]
  rfl

theorem ev_assignPtr {sub post : Bool} {a b : TE} {p i : EV} {st1 st2 st3 st4 : St} {old new : Nat}
    (h1 : d.evaluate a st = .ok (p, st1)) (h2 : d.evaluate b st1 = .ok (i, st2))
    (h3 : d.pointerStep sub p i st2 = .ok (old, new, st3)) (h4 : assignTo p new st3 = .ok st4) :
    d.evaluate (.assignPtr sub post a b) st = .ok (⟨d.tyOf a, false, .var (if post then old else new)⟩, st4) := by
  rw [Decls.evaluate, Decls.kind, h1]; simp only [Res.bind_ok, h2, h3, h4]; rfl

theorem ev_comma {a b : TE} {r r' : EV} {st1 st2 : St} (h1 : d.evaluate a st = .ok (r, st1))
    (h2 : d.evaluate b st1 = .ok (r', st2)) : d.evaluate (.comma a b) st = .ok (⟨d.tyOf b, r'.lv, r'.ee⟩, st2) := by
  rw [Decls.evaluate, Decls.kind, h1]; simp only [Res.bind_ok, h2]; rfl

theorem ev_cond {c a b : TE} {cv av bv : EV} {st1 st2 st3 st4 st5 st6 st7 : St} {cn ap bp r : Nat}
    (h1 : d.evaluate c st = .ok (cv, st1)) (h2 : d.toVar cv st1 = .ok (cn, st2)) (hv : d.tyOf a ≠ .void)
    (h3 : d.evaluate a (start (select st2 cn).2.2 (st2.next + 2)) = .ok (av, st3)) (h4 : d.toAddress av st3 = .ok (ap, st4))
    (h5 : d.evaluate b (start st4 (st2.next + 1)) = .ok (bv, st5)) (h6 : d.toAddress bv st5 = .ok (bp, st6))
    (h7 : region st6 st4.cur st6.cur = .ok (r, st7)) :
    d.evaluate (.cond c a b) st = .ok (⟨d.tyOf a, false, .ptr st7.next⟩, (emit (start st7 r) (st7.size ap) (fun k => .phi k ap bp)).2) := by
  rw [Decls.evaluate, Decls.kind, h1]
  simp only [Res.bind_ok, h2, hv, if_false, select]
  have e1 : (start { st2 with next := st2.next + 3, uses := set st2.uses st2.cur (st2.uses st2.cur ++ [Use.branch cn (st2.next + 2) (st2.next + 1)]) } (st2.next + 2))
    = start (select st2 cn).2.2 (st2.next + 2) := rfl
  rw [e1, h3]
  simp only [Res.bind_ok, h4, h5, h6, h7]
  rfl

theorem ev_cond_void {c a b : TE} {cv av bv : EV} {st1 st2 st3 st4 st5 st6 : St} {cn : Nat}
    (h1 : d.evaluate c st = .ok (cv, st1)) (h2 : d.toVar cv st1 = .ok (cn, st2)) (hv : d.tyOf a = .void)
    (h3 : d.evaluate a (start (select (newBlock st2).2 cn).2.2 (st2.next + 3)) = .ok (av, st3))
    (h4 : connect st3 st3.cur st2.next = .ok st4)
    (h5 : d.evaluate b (start st4 (st2.next + 2)) = .ok (bv, st5))
    (h6 : connect st5 st5.cur st2.next = .ok st6) :
    d.evaluate (.cond c a b) st = .ok (⟨d.tyOf a, false, .void⟩, start st6 st2.next) := by
  rw [Decls.evaluate, Decls.kind, h1]
  simp only [Res.bind_ok, h2, hv, if_true, newBlock, select]
  have e1 : (start { st2 with next := st2.next + 1 + 3, uses := set st2.uses st2.cur (st2.uses st2.cur ++ [Use.branch cn (st2.next + 1 + 2) (st2.next + 1 + 1)]) } (st2.next + 1 + 2))
    = start (select (newBlock st2).2 cn).2.2 (st2.next + 3) := rfl
  rw [e1, h3]
  simp only [Res.bind_ok, h4]
  rw [h5]
  simp only [Res.bind_ok, h6, Decls.tyOf, hv]

theorem args_nil (ps : List Ty) : d.arguments ps .anil st = .ok ([], st) := by
  rw [Decls.arguments]
  intro a rest h
  cases h

theorem args_cons {p : Ty} {ps : List Ty} {a rest : TE} {e e' : EV} {l : List EV} {st1 st2 st3 : St}
    (h1 : d.evaluate a st = .ok (e, st1)) (h2 : d.castEV e p st1 = .ok (e', st2)) (h3 : d.arguments ps rest st2 = .ok (l, st3)) :
    d.arguments (p :: ps) (.acons a rest) st = .ok (e' :: l, st3) := by
  rw [Decls.arguments, h1]; simp only [Res.bind_ok, h2, h3]

end Verif.ExprIr

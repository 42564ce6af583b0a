import Verif.X86
/-! The clauses of `exec` as rewrite rules. -/
namespace Verif.X86
open Verif Asm

variable (F : FP) (s : State)

@[simp] theorem exec_addl (a : Opd) (b : Opd) : exec F ⟨.addl, [a, b]⟩ s = Out.of (alu 32 (· + ·) a b s) := rfl
@[simp] theorem exec_addq (a : Opd) (b : Opd) : exec F ⟨.addq, [a, b]⟩ s = Out.of (alu 64 (· + ·) a b s) := rfl
@[simp] theorem exec_subl (a : Opd) (b : Opd) : exec F ⟨.subl, [a, b]⟩ s = Out.of (alu 32 (· - ·) a b s) := rfl
@[simp] theorem exec_subq (a : Opd) (b : Opd) : exec F ⟨.subq, [a, b]⟩ s = Out.of (alu 64 (· - ·) a b s) := rfl
@[simp] theorem exec_imull (a : Opd) (b : Opd) : exec F ⟨.imull, [a, b]⟩ s = Out.of (alu 32 (· * ·) a b s) := rfl
@[simp] theorem exec_imulq (a : Opd) (b : Opd) : exec F ⟨.imulq, [a, b]⟩ s = Out.of (alu 64 (· * ·) a b s) := rfl
@[simp] theorem exec_xorl (a : Opd) (b : Opd) : exec F ⟨.xorl, [a, b]⟩ s = Out.of (alu 32 (· ^^^ ·) a b s) := rfl
@[simp] theorem exec_xorq (a : Opd) (b : Opd) : exec F ⟨.xorq, [a, b]⟩ s = Out.of (alu 64 (· ^^^ ·) a b s) := rfl
@[simp] theorem exec_orl (a : Opd) (b : Opd) : exec F ⟨.orl, [a, b]⟩ s = Out.of (alu 32 (· ||| ·) a b s) := rfl
@[simp] theorem exec_orq (a : Opd) (b : Opd) : exec F ⟨.orq, [a, b]⟩ s = Out.of (alu 64 (· ||| ·) a b s) := rfl
@[simp] theorem exec_andl (a : Opd) (b : Opd) : exec F ⟨.andl, [a, b]⟩ s = Out.of (alu 32 (· &&& ·) a b s) := rfl
@[simp] theorem exec_andq (a : Opd) (b : Opd) : exec F ⟨.andq, [a, b]⟩ s = Out.of (alu 64 (· &&& ·) a b s) := rfl
@[simp] theorem exec_cltd  : exec F ⟨.cltd, []⟩ s = .ok (s.set .rdx (merge 0 32 (if ((s.reg .rax).setWidth 32).msb then -1 else 0))) := rfl
@[simp] theorem exec_cqto  : exec F ⟨.cqto, []⟩ s = .ok (s.set .rdx (if (s.reg .rax).msb then -1 else 0)) := rfl
@[simp] theorem exec_idivl (a : Opd) : exec F ⟨.idivl, [a]⟩ s = idiv 32 a s := rfl
@[simp] theorem exec_idivq (a : Opd) : exec F ⟨.idivq, [a]⟩ s = idiv 64 a s := rfl
@[simp] theorem exec_divl (a : Opd) : exec F ⟨.divl, [a]⟩ s = div 32 a s := rfl
@[simp] theorem exec_divq (a : Opd) : exec F ⟨.divq, [a]⟩ s = div 64 a s := rfl
@[simp] theorem exec_sall (a : Opd) (b : Opd) : exec F ⟨.sall, [a, b]⟩ s = Out.of (shift 32 (· <<< ·) a b s) := rfl
@[simp] theorem exec_salq (a : Opd) (b : Opd) : exec F ⟨.salq, [a, b]⟩ s = Out.of (shift 64 (· <<< ·) a b s) := rfl
@[simp] theorem exec_sarl (a : Opd) (b : Opd) : exec F ⟨.sarl, [a, b]⟩ s = Out.of (shift 32 BitVec.sshiftRight a b s) := rfl
@[simp] theorem exec_sarq (a : Opd) (b : Opd) : exec F ⟨.sarq, [a, b]⟩ s = Out.of (shift 64 BitVec.sshiftRight a b s) := rfl
@[simp] theorem exec_shrl (a : Opd) (b : Opd) : exec F ⟨.shrl, [a, b]⟩ s = Out.of (shift 32 (· >>> ·) a b s) := rfl
@[simp] theorem exec_shrq (a : Opd) (b : Opd) : exec F ⟨.shrq, [a, b]⟩ s = Out.of (shift 64 (· >>> ·) a b s) := rfl
@[simp] theorem exec_cmpl (a : Opd) (b : Opd) : exec F ⟨.cmpl, [a, b]⟩ s = Out.of (cmpIns 32 cmpFlags a b s) := rfl
@[simp] theorem exec_cmpq (a : Opd) (b : Opd) : exec F ⟨.cmpq, [a, b]⟩ s = Out.of (cmpIns 64 cmpFlags a b s) := rfl
@[simp] theorem exec_testb (a : Opd) (b : Opd) : exec F ⟨.testb, [a, b]⟩ s = Out.of (cmpIns 8 testFlags a b s) := rfl
@[simp] theorem exec_testq (a : Opd) (b : Opd) : exec F ⟨.testq, [a, b]⟩ s = Out.of (cmpIns 64 testFlags a b s) := rfl
@[simp] theorem exec_seta (a : Opd) : exec F ⟨.seta, [a]⟩ s = Out.of (setcc (fun f => !f.cf && !f.zf) a s) := rfl
@[simp] theorem exec_setb (a : Opd) : exec F ⟨.setb, [a]⟩ s = Out.of (setcc (fun f => f.cf) a s) := rfl
@[simp] theorem exec_setbe (a : Opd) : exec F ⟨.setbe, [a]⟩ s = Out.of (setcc (fun f => f.cf || f.zf) a s) := rfl
@[simp] theorem exec_sete (a : Opd) : exec F ⟨.sete, [a]⟩ s = Out.of (setcc (fun f => f.zf) a s) := rfl
@[simp] theorem exec_setg (a : Opd) : exec F ⟨.setg, [a]⟩ s = Out.of (setcc (fun f => !f.zf && f.sf == f.of) a s) := rfl
@[simp] theorem exec_setge (a : Opd) : exec F ⟨.setge, [a]⟩ s = Out.of (setcc (fun f => f.sf == f.of) a s) := rfl
@[simp] theorem exec_setl (a : Opd) : exec F ⟨.setl, [a]⟩ s = Out.of (setcc (fun f => f.sf != f.of) a s) := rfl
@[simp] theorem exec_setle (a : Opd) : exec F ⟨.setle, [a]⟩ s = Out.of (setcc (fun f => f.zf || f.sf != f.of) a s) := rfl
@[simp] theorem exec_setnb (a : Opd) : exec F ⟨.setnb, [a]⟩ s = Out.of (setcc (fun f => !f.cf) a s) := rfl
@[simp] theorem exec_setne (a : Opd) : exec F ⟨.setne, [a]⟩ s = Out.of (setcc (fun f => !f.zf) a s) := rfl
@[simp] theorem exec_movb (a : Opd) (b : Opd) : exec F ⟨.movb, [a, b]⟩ s = Out.of (mov 8 a b s) := rfl
@[simp] theorem exec_movw (a : Opd) (b : Opd) : exec F ⟨.movw, [a, b]⟩ s = Out.of (mov 16 a b s) := rfl
@[simp] theorem exec_movl (a : Opd) (b : Opd) : exec F ⟨.movl, [a, b]⟩ s = Out.of (mov 32 a b s) := rfl
@[simp] theorem exec_movq (r : Reg) (i : Nat) : exec F ⟨.movq, [.reg r 8, .xmm i]⟩ s = .ok (s.setX i (s.reg r)) := rfl
@[simp] theorem exec_movq_1 (i : Nat) (r : Reg) : exec F ⟨.movq, [.xmm i, .reg r 8]⟩ s = .ok (s.set r (s.xmm i)) := rfl
@[simp] theorem exec_movq_rr (r r2 : Reg) : exec F ⟨.movq, [.reg r 8, .reg r2 8]⟩ s = Out.of (mov 64 (.reg r 8) (.reg r2 8) s) := by
  rfl
@[simp] theorem exec_movq_mr (o : Int) (b r : Reg) (n : Nat) : exec F ⟨.movq, [.mem o b, .reg r n]⟩ s = Out.of (mov 64 (.mem o b) (.reg r n) s) := by
  rfl
@[simp] theorem exec_movq_rm (o : Int) (b r : Reg) : exec F ⟨.movq, [.reg r 8, .mem o b]⟩ s = Out.of (mov 64 (.reg r 8) (.mem o b) s) := by
  rfl
@[simp] theorem exec_movq_im (l : Option Nat) (v o : Int) (b : Reg) : exec F ⟨.movq, [.imm l v, .mem o b]⟩ s = Out.of (mov 64 (.imm l v) (.mem o b) s) := by
  rfl
@[simp] theorem exec_movq_ir (l : Option Nat) (v : Int) (r : Reg) (n : Nat) : exec F ⟨.movq, [.imm l v, .reg r n]⟩ s = Out.of (mov 64 (.imm l v) (.reg r n) s) := by
  rfl
@[simp] theorem exec_movabsq (v : Int) (r : Reg) : exec F ⟨.movabsq, [.imm none v, .reg r 8]⟩ s = .ok (s.set r (BitVec.ofInt 64 v)) := rfl
@[simp] theorem exec_movzbl (a : Opd) (b : Opd) : exec F ⟨.movzbl, [a, b]⟩ s = Out.of (movx 8 32 (·.setWidth 32) a b s) := rfl
@[simp] theorem exec_movzwl (a : Opd) (b : Opd) : exec F ⟨.movzwl, [a, b]⟩ s = Out.of (movx 16 32 (·.setWidth 32) a b s) := rfl
@[simp] theorem exec_movsbl (a : Opd) (b : Opd) : exec F ⟨.movsbl, [a, b]⟩ s = Out.of (movx 8 32 (·.signExtend 32) a b s) := rfl
@[simp] theorem exec_movswl (a : Opd) (b : Opd) : exec F ⟨.movswl, [a, b]⟩ s = Out.of (movx 16 32 (·.signExtend 32) a b s) := rfl
@[simp] theorem exec_movsbq (a : Opd) (b : Opd) : exec F ⟨.movsbq, [a, b]⟩ s = Out.of (movx 8 64 (·.signExtend 64) a b s) := rfl
@[simp] theorem exec_movswq (a : Opd) (b : Opd) : exec F ⟨.movswq, [a, b]⟩ s = Out.of (movx 16 64 (·.signExtend 64) a b s) := rfl
@[simp] theorem exec_movslq (a : Opd) (b : Opd) : exec F ⟨.movslq, [a, b]⟩ s = Out.of (movx 32 64 (·.signExtend 64) a b s) := rfl
@[simp] theorem exec_leal (off : Int) (b : Reg) (r : Reg) : exec F ⟨.leal, [.mem off b, .reg r 4]⟩ s = .ok (s.set r (((s.addr off b).setWidth 32).setWidth 64)) := rfl
@[simp] theorem exec_leaq (off : Int) (b : Reg) (r : Reg) : exec F ⟨.leaq, [.mem off b, .reg r 8]⟩ s = .ok (s.set r (s.addr off b)) := rfl
@[simp] theorem exec_notq (a : Opd) : exec F ⟨.notq, [a]⟩ s = Out.of (unary 64 (~~~ ·) a s) := rfl
@[simp] theorem exec_negq (a : Opd) : exec F ⟨.negq, [a]⟩ s = Out.of (unary 64 (- ·) a s) := rfl
@[simp] theorem exec_btcq (v : Int) (r : Reg) : exec F ⟨.btcq, [.imm none v, .reg r 8]⟩ s = .ok { s.set r (s.reg r ^^^ (1#64 <<< ((BitVec.ofInt 64 v).toNat % 64))) with fl := none } := rfl
@[simp] theorem exec_movd (r : Reg) (i : Nat) : exec F ⟨.movd, [.reg r 4, .xmm i]⟩ s = .ok (s.setX i (((s.reg r).setWidth 32).setWidth 64)) := rfl
@[simp] theorem exec_movd_1 (r : Reg) (i : Nat) : exec F ⟨.movd, [.reg r 8, .xmm i]⟩ s = .ok (s.setX i (s.reg r)) := rfl
@[simp] theorem exec_movd_2 (i : Nat) (r : Reg) : exec F ⟨.movd, [.xmm i, .reg r 4]⟩ s = .ok (s.set r ((s.x32 i).setWidth 64)) := rfl
@[simp] theorem exec_movss (i : Nat) (off : Int) (b : Reg) : exec F ⟨.movss, [.xmm i, .mem off b]⟩ s = .ok (s.store (s.addr off b) 4 (s.x32 i).toNat) := rfl
@[simp] theorem exec_movsd (i : Nat) (off : Int) (b : Reg) : exec F ⟨.movsd, [.xmm i, .mem off b]⟩ s = .ok (s.store (s.addr off b) 8 (s.xmm i).toNat) := rfl
@[simp] theorem exec_movsd_1 (off : Int) (b : Reg) (i : Nat) : exec F ⟨.movsd, [.mem off b, .xmm i]⟩ s = .ok (s.setX i (BitVec.ofNat 64 (rd s.mem (s.addr off b) 8))) := rfl
@[simp] theorem exec_addss (i : Nat) (j : Nat) : exec F ⟨.addss, [.xmm i, .xmm j]⟩ s = .ok (s.setX32 j (F.add32 (s.x32 j) (s.x32 i))) := rfl
@[simp] theorem exec_subss (i : Nat) (j : Nat) : exec F ⟨.subss, [.xmm i, .xmm j]⟩ s = .ok (s.setX32 j (F.sub32 (s.x32 j) (s.x32 i))) := rfl
@[simp] theorem exec_mulss (i : Nat) (j : Nat) : exec F ⟨.mulss, [.xmm i, .xmm j]⟩ s = .ok (s.setX32 j (F.mul32 (s.x32 j) (s.x32 i))) := rfl
@[simp] theorem exec_divss (i : Nat) (j : Nat) : exec F ⟨.divss, [.xmm i, .xmm j]⟩ s = .ok (s.setX32 j (F.div32 (s.x32 j) (s.x32 i))) := rfl
@[simp] theorem exec_addsd (i : Nat) (j : Nat) : exec F ⟨.addsd, [.xmm i, .xmm j]⟩ s = .ok (s.setX j (F.add64 (s.xmm j) (s.xmm i))) := rfl
@[simp] theorem exec_subsd (i : Nat) (j : Nat) : exec F ⟨.subsd, [.xmm i, .xmm j]⟩ s = .ok (s.setX j (F.sub64 (s.xmm j) (s.xmm i))) := rfl
@[simp] theorem exec_mulsd (i : Nat) (j : Nat) : exec F ⟨.mulsd, [.xmm i, .xmm j]⟩ s = .ok (s.setX j (F.mul64 (s.xmm j) (s.xmm i))) := rfl
@[simp] theorem exec_divsd (i : Nat) (j : Nat) : exec F ⟨.divsd, [.xmm i, .xmm j]⟩ s = .ok (s.setX j (F.div64 (s.xmm j) (s.xmm i))) := rfl
@[simp] theorem exec_ucomiss (i : Nat) (j : Nat) : exec F ⟨.ucomiss, [.xmm i, .xmm j]⟩ s = .ok { s with fl := some (ucomFlags (Float.cmp Float.f32 (s.x32 j).toNat (s.x32 i).toNat)) } := rfl
@[simp] theorem exec_ucomisd (i : Nat) (j : Nat) : exec F ⟨.ucomisd, [.xmm i, .xmm j]⟩ s = .ok { s with fl := some (ucomFlags (Float.cmp Float.f64 (s.xmm j).toNat (s.xmm i).toNat)) } := rfl
@[simp] theorem exec_cvtss2sd (i : Nat) (j : Nat) : exec F ⟨.cvtss2sd, [.xmm i, .xmm j]⟩ s = .ok (s.setX j (F.widen (s.x32 i))) := rfl
@[simp] theorem exec_cvtsd2ss (i : Nat) (j : Nat) : exec F ⟨.cvtsd2ss, [.xmm i, .xmm j]⟩ s = .ok (s.setX32 j (F.narrow (s.xmm i))) := rfl
@[simp] theorem exec_cvtsi2ss (r : Reg) (j : Nat) : exec F ⟨.cvtsi2ss, [.reg r 8, .xmm j]⟩ s = .ok (s.setX32 j (BitVec.ofNat 32 (Float.ofInt Float.f32 (s.reg r).toInt))) := rfl
@[simp] theorem exec_cvtsi2sd (r : Reg) (j : Nat) : exec F ⟨.cvtsi2sd, [.reg r 8, .xmm j]⟩ s = .ok (s.setX j (BitVec.ofNat 64 (Float.ofInt Float.f64 (s.reg r).toInt))) := rfl
@[simp] theorem exec_cvttss2si (i : Nat) (r : Reg) : exec F ⟨.cvttss2si, [.xmm i, .reg r 8]⟩ s = .ok (s.set r (cvtt (Float.trunc Float.f32 (s.x32 i).toNat))) := rfl
@[simp] theorem exec_cvttsd2si (i : Nat) (r : Reg) : exec F ⟨.cvttsd2si, [.xmm i, .reg r 8]⟩ s = .ok (s.set r (cvtt (Float.trunc Float.f64 (s.xmm i).toNat))) := rfl
@[simp] theorem exec_pushq (r : Reg) : exec F ⟨.pushq, [.reg r 8]⟩ s = .ok ((s.set .rsp (s.reg .rsp - 8)).store (s.reg .rsp - 8) 8 (s.reg r).toNat) := rfl
@[simp] theorem exec_leave  : exec F ⟨.leave, []⟩ s = .ok ((s.set .rsp (s.reg .rbp + 8)).set .rbp (BitVec.ofNat 64 (rd s.mem (s.reg .rbp) 8))) := rfl

end Verif.X86

import Verif.Frame
import Verif.Memory
/-!
Model of reading a parameter that was passed on the stack: the code for
`IR_LOAD_BASE_RELATIVE_ADDRESS`, src/codegen/codegen.c:482-487.
-/
namespace Verif.StackParam
open Verif Asm Codegen Memory

/-- src/codegen/codegen.c:482-487, with the offset `current_mem + 16` of
src/abi/sysv.c:340: copy the parameter of `size` bytes at `off` in the argument area to the
object whose address is in the slot `dst`. -/
def loadParam (off size : Nat) (dst : Slot) : Res (List Ins) := do
  let c ← scalarToReg dst .rsi
  pure ([⟨.leaq, [MEM ((off + 16 : Nat) : Int) .rbp, R8 .rdi]⟩] ++ c ++ memcpy size)

end Verif.StackParam

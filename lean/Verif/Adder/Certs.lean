import Verif.Adder.Files
import Verif.Adder.Check

/-!
The certificates of the four adder files, checked by evaluation in the kernel.  The statements about all
operands follow by `checkFile_sound`.
-/
set_option autoImplicit false
set_option maxRecDepth 1000000

namespace Verif.Adder

theorem file8_ok : checkFile 8 (text file8) = true := by decide +kernel
theorem file16_ok : checkFile 16 (text file16) = true := by decide +kernel
theorem file32_ok : checkFile 32 (text file32) = true := by decide +kernel
theorem file64_ok : checkFile 64 (text file64) = true := by decide +kernel

end Verif.Adder

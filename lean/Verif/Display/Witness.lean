import Verif.Display.PathProps
import Verif.Display.Bounded
import Verif.Display.Columns
set_option autoImplicit false

/-! # Theorems of C31, C32, C34, C35 and C68 applied to concrete texts -/
namespace Verif.Display

example := displayString_spec .wide (lit "日本語の長い文字列です") 8 (by decide)

def wPath : List Text := [root, lit "usr", lit "include", lit "stuff.h"]

theorem wPath_valid : ValidPath wPath := by unfold ValidPath; decide

example := truncatePath_spec .unit wPath 14 wPath_valid (by decide) (by decide)
example := truncatePath_root_file_exact .unit (lit "main.cpp") (by decide) (by decide) (by decide)
example := truncatePath_empty .unit 20 (by decide)

example := displayActivityDesc_single .unit (lit "Source") (.path wPath) 22 ⟨wPath_valid, by decide⟩ (by decide)
example := displayActivityDesc_argument .unit (lit "Source") (.path wPath) 22 ⟨wPath_valid, by decide⟩ (by decide) rfl (by decide)
example := displayActivityDesc_argument .unit (lit "Source") (.str (lit "hello world")) 14 trivial (by decide) rfl (by decide)

example := metadata_content .unit (lit "clang-14") [lit "pid 5884", lit "thread \"c\""] 24 (by decide) (by decide) (by decide) (by decide)

end Verif.Display

namespace Verif.Display.Columns

example := c68_footer_fits [60, 23] 80 (by decide) (by decide) (by decide)
example := c68_footer_fits [60, 75] 80 (by decide) (by decide) (by decide)

end Verif.Display.Columns

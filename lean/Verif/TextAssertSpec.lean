import Verif.ColumnPrinterSpec

/-!
# Specification for debug builds of `ColumnPrinter`
-/

namespace Verif.ColumnPrinter

open Verif.Text

/-- A call whose strings have no newline where it would break a row, and no NUL of the user's own. -/
def Op.Tame : Op → Prop
  | .setPrefix p => '\n' ∉ p
  | .addColumn _ p q => '\n' ∉ p ∧ '\n' ∉ q
  | .write _ str => nul ∉ str
  | .repeatOne _ _ => True
  | .repeatAll _ => True

end Verif.ColumnPrinter

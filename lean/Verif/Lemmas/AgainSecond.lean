import Verif.Lemmas.AgainMutual
/-!
# Example for C69: the new document imported
-/

namespace Avdl.Props
open Spec

attribute [local instance] asciiTables exFloats exCases exJsonFloats

theorem exAgain_checks' :
    ((Builder.new.compileFile (exReimportWorld (exAgain exSecond)) 9 "a").1.toBool &&
    (Builder.new.convert (exReimportWorld (exAgain exSecond)) 9 "a").1.toBool &&
    decide (exWritten (exAgain exSecond) = exFirst)) = true := by decide +kernel

end Avdl.Props

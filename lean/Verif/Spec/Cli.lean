import Verif.Model.Cli
import Verif.Spec.Lrat
/-!
# Specification: reading the output of the command line tool

The format of the SAT competition: lines starting with `c ` are comments, `s ` gives the verdict and `v ` lists
the literals of the model.
-/
namespace Varisat.Cli
open Spec.Lrat (split int?)

/-- The lines of the output. -/
def outLines (out : Bytes) : List Bytes := split 10 out

/-- The rest of the lines with the given first two bytes. -/
def linesWith (tag : String) (out : Bytes) : List Bytes :=
  (outLines out).filterMap fun l => if l.take 2 = ascii tag then some (l.drop 2) else none

/-- The verdicts printed. -/
def verdicts (out : Bytes) : List Bytes := linesWith "s " out

/-- The numbers of the value lines; a line that is not a list of numbers gives `none`. -/
def values (out : Bytes) : List (Option (List Int)) :=
  (linesWith "v " out).map fun l => (split 32 l).mapM int?

/-- No log message contains a line break. -/
def Log.OneLine (log : Log) : Prop :=
  ∀ m, some m ∈ [log.banner1, log.banner2, log.reading, log.proof, log.error, log.failedStep] ++ log.solving →
    (10 : UInt8) ∉ m

end Varisat.Cli

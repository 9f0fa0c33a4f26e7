import Verif.Model.Construct

/-!
# Specification vocabulary: ripser's output for the same distances in another format (independent of the proofs)
-/

namespace Dreimac

/-- Two runs of ripser found the same landmarks, the same diagrams and the same cocycles (their tables of distances may have
different shapes). -/
structure SameRipser (res res' : RipserResult ℝ) : Prop where
  idxPerm : res'.idxPerm = res.idxPerm
  dgms : res'.dgms = res.dgms
  cocycles : res'.cocycles = res.cocycles

end Dreimac

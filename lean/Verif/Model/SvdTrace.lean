import Verif.Model.Completion

/-! # The matrices that `IterativeSVD_mc.impute` goes through: `alipy/query_strategy/query_features.py` lines 340-388 -/
namespace Alipy.Features

variable {K : Type} {r c : Nat}

/-- The rank of iteration `i`, lines 372-375. -/
def Svd.rankAt (o : Svd K) (i : Nat) : Nat := if o.gradual then min (2 ^ i) o.rank else o.rank

/-- `X_filled` before iteration `i` (lines 368 and 385), if no iteration before has converged. -/
def filledAt [Field K] [LinearOrder K] (o : Svd K) (svd : Nat → Mat r c K → Mat r c K) (X mask : Mat r c K) : Nat → Mat r c K
  | 0 => had X (compl mask)
  | i + 1 => plus (had (fun a b => clip o.lo o.hi (svd (o.rankAt i) (filledAt o svd X mask i) a b)) (compl mask)) (had X mask)

/-- The low-rank matrix of iteration `i`, lines 376-378, before its values are clipped. -/
def lowAt [Field K] [LinearOrder K] (o : Svd K) (svd : Nat → Mat r c K → Mat r c K) (X mask : Mat r c K) (i : Nat) : Mat r c K :=
  svd (o.rankAt i) (filledAt o svd X mask i)

/-- `X_reconstructed` of iteration `i`, line 379. -/
def recAt [Field K] [LinearOrder K] (o : Svd K) (svd : Nat → Mat r c K → Mat r c K) (X mask : Mat r c K) (i : Nat) : Mat r c K :=
  fun a b => clip o.lo o.hi (lowAt o svd X mask i a b)

/-- `converged` of iteration `i`, lines 381-384. -/
def stopsAt [Field K] [LinearOrder K] (o : Svd K) (svd : Nat → Mat r c K → Mat r c K) (X mask : Mat r c K) (i : Nat) : Bool :=
  converged o.prec o.threshold (filledAt o svd X mask i) (recAt o svd X mask i) (compl mask)

end Alipy.Features

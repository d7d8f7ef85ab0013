import Verif.Model.RoundedMicro

/-!
`ParkinsonVolatility`, `CorwinSchultzSpread`, `BeckersParkinsonVolatility`
(`/repo/mizarlabs/transformers/microstructural_features/first_generation.py` lines 98-110, 113-165, 196-205, 236-248), `AmihudLambda`
and `HasbrouckLambda` (`second_generation.py` lines 78-87, 118-129) with rounding, on the columns.  `r` rounds the result of every
operation, `lg`, `sq` and `ex` are the rounded logarithm, square root and exponential; rolling maxima and minima, absolute values and
multiplication by 2 and 4 are exact.  Rolling sums and means as in `Verif/Model/RoundedRoll.lean`.  `2 ** 0.5` is `sq 2`.  The
exponent is unbounded and the sign of zero is not modelled.
-/

namespace Mizar.Rd
variable {K : Type} [Field K] [LinearOrder K]

/-- `np.log` with the logarithm `lg` of positive numbers. -/
def logR (lg : K → K) : XF K → XF K
  | .nan => .nan
  | .ninf => .nan
  | .pinf => .pinf
  | .fin x => if x < 0 then .nan else if x = 0 then .ninf else .fin (lg x)

/-- `np.sqrt` and `** 0.5` with the square root `sq` of numbers that are not negative. -/
def sqrtR (sq : K → K) : XF K → XF K
  | .nan => .nan
  | .ninf => .nan
  | .pinf => .pinf
  | .fin x => if x < 0 then .nan else .fin (sq x)

/-- `np.exp`. -/
def expR (ex : K → K) : XF K → XF K
  | .nan => .nan
  | .ninf => .fin 0
  | .pinf => .pinf
  | .fin x => .fin (ex x)

/-- `np.square`, `x ** 2`. -/
def squareR (r : K → K) (x : XF K) : XF K := rnd r (XF.mul x x)

/-- `np.log(a / b) ** 2` for one bar. -/
def rangeR (r lg : K → K) (a b : XF K) : XF K := squareR r (logR lg (rnd r (XF.div a b)))

/-- `ParkinsonVolatility.transform` (`first_generation.py` lines 98-110). -/
def parkinsonR (r lg : K → K) (w : ℕ) (high low : List (XF K)) : List (XF K) :=
  rollMean r w ((List.zipWith (rangeR r lg) high low).map fun x => rnd r (XF.mul (.fin (r (1 / (4 * lg 2)))) x))

/-- The sums over two bars in `_get_beta` (`first_generation.py` lines 126-128). -/
def pairR (r lg : K → K) (high low : List (XF K)) : List (XF K) := rollSum r 2 (List.zipWith (rangeR r lg) high low)

/-- `_get_beta` (`first_generation.py` lines 113-130). -/
def betaR (r lg : K → K) (w : ℕ) (high low : List (XF K)) : List (XF K) := rollMean r w (pairR r lg high low)

/-- `_get_gamma` (`first_generation.py` lines 133-147). -/
def gammaR (r lg : K → K) (high low : List (XF K)) : List (XF K) :=
  List.zipWith (rangeR r lg) (rolling 2 winMax high) (rolling 2 winMin low)

/-- `3 - 2 * 2 ** 0.5` (`first_generation.py` lines 161, 243). -/
def denR (r sq : K → K) : K := r (3 - 2 * sq 2)

/-- `x[x < 0] = 0` (`first_generation.py` lines 164, 246). -/
def clipR (x : XF K) : XF K := if XF.lt x (.fin 0) then .fin 0 else x

/-- `_get_alpha` (`first_generation.py` lines 150-165) at one position. -/
def alphaR (r sq : K → K) (b g : XF K) : XF K :=
  clipR (rnd r (XF.sub (rnd r (XF.div (rnd r (XF.mul (.fin (r (sq 2 - 1))) (sqrtR sq b))) (.fin (denR r sq))))
    (sqrtR sq (rnd r (XF.div g (.fin (denR r sq)))))))

/-- `2 * (np.exp(alpha) - 1) / (1 + np.exp(alpha))` (`first_generation.py` line 203). -/
def spreadR (r ex : K → K) (a : XF K) : XF K :=
  rnd r (XF.div (XF.mul (.fin 2) (rnd r (XF.sub (expR ex a) (.fin 1)))) (rnd r (XF.add (.fin 1) (expR ex a))))

/-- `CorwinSchultzSpread.transform` (`first_generation.py` lines 196-205). -/
def corwinSchultzR (r lg sq ex : K → K) (w : ℕ) (high low : List (XF K)) : List (XF K) :=
  (List.zipWith (alphaR r sq) (betaR r lg w high low) (gammaR r lg high low)).map (spreadR r ex)

/-- The volatility of `BeckersParkinsonVolatility.transform` (`first_generation.py` lines 242-247) at one position; `h2` is
`2 ** -0.5` and `k2` is `(8 / np.pi) ** 0.5`. -/
def sigmaR (r sq : K → K) (h2 k2 : K) (b g : XF K) : XF K :=
  clipR (rnd r (XF.add (rnd r (XF.div (rnd r (XF.mul (.fin (r (h2 - 1))) (sqrtR sq b))) (.fin (r (k2 * denR r sq)))))
    (sqrtR sq (rnd r (XF.div g (.fin (r (r (k2 * k2) * denR r sq))))))))

/-- `BeckersParkinsonVolatility.transform` (`first_generation.py` lines 236-248). -/
def beckersParkinsonR (r lg sq : K → K) (h2 k2 : K) (w : ℕ) (high low : List (XF K)) : List (XF K) :=
  List.zipWith (sigmaR r sq h2 k2) (betaR r lg w high low) (gammaR r lg high low)

/-- `np.abs(np.log(close).diff())` (`second_generation.py` lines 83, 124). -/
def logMovesR (r lg : K → K) (close : List (XF K)) : List (XF K) := (diffR r (close.map (logR lg))).map XF.abs

/-- `AmihudLambda.transform` (`second_generation.py` lines 78-87). -/
def amihudR (r lg : K → K) (w : ℕ) (close volume : List (XF K)) : List (XF K) :=
  rollMean r w (List.zipWith (fun a b => rnd r (XF.div a b)) (logMovesR r lg close) volume)

/-- `HasbrouckLambda.transform` (`second_generation.py` lines 118-129). -/
def hasbrouckR (r lg sq : K → K) (w : ℕ) (close volume : List (XF K)) : List (XF K) :=
  rollMean r w (List.zipWith (fun a b => rnd r (XF.div a b)) (logMovesR r lg close) (volume.map (sqrtR sq)))

end Mizar.Rd

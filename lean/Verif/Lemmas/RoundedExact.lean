import Verif.Model.RoundedPower
import Verif.Lemmas.Flt

set_option linter.unusedSectionVars false

/-!
# Without rounding, the rounded functions are the exact ones
-/

namespace CLF

variable {K : Type} [Field K] [LinearOrder K] [IsStrictOrderedRing K] [FloorRing K]

theorem toUnitR_exact (v : Flt K) (d : Depth) : toUnitR unrounded v d = bitDepthToNormalized v d := rfl

theorem fromUnitR_exact (v : Flt K) (d : Depth) : fromUnitR unrounded v d = normalizedToBitDepth v d := rfl

theorem linearR_exact (a : Arr K) (p : Flt K) (c : ℕ) : a.lookup1DLinearR unrounded p c = a.lookup1DLinear p c := rfl

theorem halfR_exact (t : Fmt) (a : Arr K) (p : Flt K) (c : ℕ) :
    a.lookup1DHalfDomainInterpolatedR unrounded t p c = a.lookup1DHalfDomain p c := rfl

theorem cornersR_exact (a : Arr K) (p : List (Flt K)) : a.cornersR unrounded p = a.corners p := rfl

theorem mixR_exact (a b : List (Flt K)) (t : Flt K) : mixR unrounded a b t = mix a b t := rfl

theorem trilinearR_exact (a : Arr K) (p : List (Flt K)) : a.lookup3DTrilinearR unrounded p = a.lookup3DTrilinear p := rfl

theorem tetrahedralR_exact (a : Arr K) (p : List (Flt K)) :
    a.lookup3DTetrahedralR unrounded p = a.lookup3DTetrahedral p := rfl

theorem searchR_exact (m : IndexMap K) (v : Flt K) : ∀ n i, m.searchR unrounded v i n = m.search v i n
  | 0, _ => rfl
  | n + 1, i => by
    unfold IndexMap.searchR IndexMap.search
    simp only [searchR_exact m v n]
    rfl

theorem mapR_exact (m : IndexMap K) (v : Flt K) : m.processR unrounded v = m.process v := by
  unfold IndexMap.processR IndexMap.process IndexMap.processRaw
  simp only [searchR_exact]
  cases v <;> rfl

theorem rangeR_exact {A : Arith K} (hA : A.Exact) (b : Base K) (v : List (Flt K)) :
    rangeProcessR unrounded b v = rangeProcess A b v := by
  have : A.f32 = fun x => x := funext hA
  unfold rangeProcessR rangeProcess rangeStepR rangeStep
  simp only [this]
  rfl

theorem matrixR_exact {A : Arith K} (hA : A.Exact) (t : Fmt) (b : Base K) (v : List (Flt K)) (s : ℕ) :
    matrixProcessR unrounded t b v s = matrixProcess A b v s := by
  have : A.f32 = fun x => x := funext hA
  unfold matrixProcessR matrixProcess matrixRowR matrixRow
  simp only [this]
  rfl

theorem normalizeR_exact {A : Arith K} (hA : A.Exact) (maps : List (IndexMap K)) (d : Depth) (dim : Py ℕ) (i : ℕ) (x : Flt K) :
    lutNormalizeR unrounded maps d dim i x = lutNormalize A maps d dim i x := by
  have : A.f32 = fun x => x := funext hA
  unfold lutNormalizeR lutNormalize
  simp only [this, mapR_exact]
  rfl

theorem lut1dR_exact {A : Arith K} (hA : A.Exact) (t : Fmt) (b : Base K) (v : List (Flt K)) (s : ℕ) :
    lut1dProcessR unrounded t b v s = lut1dProcess A b v s := by
  have : A.f32 = fun x => x := funext hA
  unfold lut1dProcessR lut1dProcess
  simp only [normalizeR_exact hA, halfR_exact, linearR_exact, this]
  rfl

theorem lut3dR_exact {A : Arith K} (hA : A.Exact) (b : Base K) (v : List (Flt K)) (s : ℕ) :
    lut3dProcessR unrounded b v s = lut3dProcess A b v s := by
  have : A.f32 = fun x => x := funext hA
  unfold lut3dProcessR lut3dProcess assign3R assign3
  simp only [normalizeR_exact hA, trilinearR_exact, tetrahedralR_exact, this]
  rfl

/-! ## Powers and logarithms -/

theorem floatMinR_exact : floatMinR (unrounded : Rounding K) = floatMin := by
  simp only [floatMinR, literalR, unrounded, floatMin, Flt.fin_mul]
  congr 1
  ring

theorem cdlR_exact {A : Arith K} (hA : A.Exact) (compat : ℕ) (c : CdlValues K) (b : Base K) (v : List (Flt K)) (s : ℕ) :
    cdlProcessR unrounded A compat c b v s = cdlProcess A compat c b v s := by
  have : A.f32 = fun x => x := funext hA
  have hd : ∀ u x y : Flt K, cdlDivR unrounded u x y = cdlDiv u x y := fun u x y => by
    unfold cdlDivR; cases cdlDiv u x y <;> rfl
  unfold cdlProcessR cdlProcess cdlPixelR cdlPixel cdlFwdR cdlFwd cdlFwdNoClampR cdlFwdNoClamp cdlRevR cdlRev cdlRevNoClampR cdlRevNoClamp
  simp only [this, hd]
  rfl

theorem divR_exact (x y : Flt K) : divR unrounded x y = pyDivF x y := by
  unfold divR; cases pyDivF x y <;> rfl

theorem ecR_exact {A : Arith K} (hA : A.Exact) (e c p : Flt K) (b : Base K) (v : List (Flt K)) (s : ℕ) :
    ecProcessR unrounded A e c p b v s = ecProcess A e c p b v s := by
  have : A.f32 = fun x => x := funext hA
  unfold ecProcessR ecProcess ecChannelsR ecChannels
  simp only [this]
  rfl

theorem gammaR_exact {A : Arith K} (hA : A.Exact) (ps : List (GammaParam K)) (b : Base K) (v : List (Flt K)) (s : ℕ) :
    gammaProcessR unrounded A ps b v s = gammaProcess A ps b v s := by
  have : A.f32 = fun x => x := funext hA
  have hs : ∀ st, gammaStyleR unrounded A st = gammaStyle A st := fun st => by
    unfold gammaStyleR gammaStyle gammaBasicRevR gammaBasicRev moncurveFwdR moncurveRevR
    simp only [divR_exact]
    rfl
  unfold gammaProcessR gammaProcess
  simp only [this, hs]
  rfl

theorem logR_exact {A : Arith K} (hA : A.Exact) (ps : List (LogParam K)) (b : Base K) (v : List (Flt K)) (s : ℕ) :
    logProcessR unrounded A ps b v s = logProcess A ps b v s := by
  have : A.f32 = fun x => x := funext hA
  have hs : ∀ st, logStyleR unrounded A st = logStyle A st := fun st => by
    unfold logStyleR logStyle logToLinR linToLogR logGainR
    simp only [divR_exact, floatMinR_exact]
    rfl
  unfold logProcessR logProcess
  simp only [this, hs]
  rfl

end CLF

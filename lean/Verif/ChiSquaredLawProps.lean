import Verif.ChiSquaredLaw
import Verif.QuadratureAccuracyProps
import Verif.RansacGp
import Verif.OptimalProps
import Verif.RandomMatrixProps

/-! # The chi squared score is a probability (C119)

Specification: probabilities of events in an arbitrary probability space, normal vectors. -/

namespace Albatross

open MeasureTheory ProbabilityTheory Matrix

variable {Ω : Type} [MeasurableSpace Ω] {P : Measure Ω} [IsProbabilityMeasure P]

/-- The accuracy of the code in terms of `chiCdf`. -/
theorem chiSquaredCdf_near (b : Build) {k : Nat} (hk : 0 < k) {x : ℝ} (hx : 0 ≤ x) :
    ∃ v, chiSquaredCdf b (.fin x) (.fin k) = .ok (.fin v) ∧ |v - chiCdf k x| ≤ 7 / 10 ^ 5 ∧
      (k < 20 ∨ 40 ≤ k → |v - chiCdf k x| ≤ 1 / 10 ^ 6) := by
  obtain ⟨v, h1, h2, h3⟩ := C93_chi_squared_accuracy b x k (by exact_mod_cast hk) hx
  exact ⟨v, h1, h2, fun h => h3 (by exact_mod_cast h)⟩

theorem mahalanobis_eq {k : Type} [Fintype k] [DecidableEq k] {S L : Matrix k k ℝ} (hL : L * Lᵀ = S)
    (d : k → ℝ) : ∑ i, (L⁻¹ *ᵥ d) i ^ 2 = d ⬝ᵥ (S⁻¹ *ᵥ d) := by
  have e : S⁻¹ = (L⁻¹)ᵀ * L⁻¹ := by
    rw [← hL, Matrix.mul_inv_rev, ← Matrix.transpose_nonsing_inv]
  have : ∑ i, (L⁻¹ *ᵥ d) i ^ 2 = (L⁻¹ *ᵥ d) ⬝ᵥ (L⁻¹ *ᵥ d) := by
    simp [dotProduct, pow_two]
  rw [this, e, ← Matrix.mulVec_mulVec, Matrix.dotProduct_mulVec d, Matrix.vecMul_transpose]

/-- **C119**: `chi_squared_cdf(x, n)` is the probability that the squared Mahalanobis distance of an `n`-dimensional normal
vector from its mean is at most `x`: to within `7e-5`, and to within `1e-6` unless `20 ≤ n < 40`. -/
theorem C119_probability (b : Build) {n : Nat} (hn : 0 < n) {Y : Ω → Fin n → ℝ} {μ : Fin n → ℝ}
    {S : Matrix (Fin n) (Fin n) ℝ} (hS : S.PosDef) (hY : IsNormal P Y μ S) {x : ℝ} (hx : 0 ≤ x) :
    ∃ v, chiSquaredCdf b (.fin x) (.fin n) = .ok (.fin v) ∧
      |v - P.real {ω | (Y ω - μ) ⬝ᵥ (S⁻¹ *ᵥ (Y ω - μ)) ≤ x}| ≤ 7 / 10 ^ 5 ∧
      (n < 20 ∨ 40 ≤ n → |v - P.real {ω | (Y ω - μ) ⬝ᵥ (S⁻¹ *ᵥ (Y ω - μ)) ≤ x}| ≤ 1 / 10 ^ 6) := by
  have : Nonempty (Fin n) := ⟨⟨0, hn⟩⟩
  have hl := (eigenLltContract n).mul S hS
  have hd := (eigenLltContract n).det S hS
  have h := hY.mahalanobis_le hl hd hx
  simp only [mahalanobis_eq hl, Fintype.card_fin] at h
  rw [h]
  exact chiSquaredCdf_near b hn hx

/-- Two events with values close to a uniform variable. -/
theorem near_uniform {U : Ω → ℝ} {V : Ω → ℝ} {ε p : ℝ} (hε : 0 ≤ ε) (hUV : ∀ ω, |V ω - U ω| ≤ ε)
    (hu : ∀ p : ℝ, 0 ≤ p → p ≤ 1 → P.real {ω | U ω ≤ p} = p)
    (hg : ∀ p : ℝ, 0 ≤ p → p ≤ 1 → P.real {ω | p < U ω} = 1 - p) (hp : 0 ≤ p) (hp1 : p ≤ 1) :
    |P.real {ω | V ω ≤ p} - p| ≤ ε ∧ |P.real {ω | p < V ω} - (1 - p)| ≤ ε := by
  have hlo : ∀ ω, U ω ≤ V ω + ε := fun ω => by linarith [(abs_le.1 (hUV ω)).1]
  have hhi : ∀ ω, V ω ≤ U ω + ε := fun ω => by linarith [(abs_le.1 (hUV ω)).2]
  have n1 : 0 ≤ P.real {ω | V ω ≤ p} := measureReal_nonneg
  have n2 : 0 ≤ P.real {ω | p < V ω} := measureReal_nonneg
  have l1 : P.real {ω | V ω ≤ p} ≤ 1 := measureReal_le_one
  have l2 : P.real {ω | p < V ω} ≤ 1 := measureReal_le_one
  have down : ε ≤ p → p - ε ≤ P.real {ω | V ω ≤ p} ∧ P.real {ω | p < V ω} ≤ 1 - p + ε := by
    intro h
    have h1 := hu (p - ε) (by linarith) (by linarith)
    have h2 := hg (p - ε) (by linarith) (by linarith)
    constructor
    · rw [← h1]
      exact measureReal_mono fun ω (hω : U ω ≤ p - ε) => (by linarith [hhi ω] : V ω ≤ p)
    · have : P.real {ω | p < V ω} ≤ P.real {ω | p - ε < U ω} :=
        measureReal_mono fun ω (hω : p < V ω) => (by linarith [hhi ω] : p - ε < U ω)
      linarith
  have up : p + ε ≤ 1 → P.real {ω | V ω ≤ p} ≤ p + ε ∧ 1 - p - ε ≤ P.real {ω | p < V ω} := by
    intro h
    have h1 := hu (p + ε) (by linarith) h
    have h2 := hg (p + ε) (by linarith) h
    constructor
    · rw [← h1]
      exact measureReal_mono fun ω (hω : V ω ≤ p) => (by linarith [hlo ω] : U ω ≤ p + ε)
    · have : P.real {ω | p + ε < U ω} ≤ P.real {ω | p < V ω} :=
        measureReal_mono fun ω (hω : p + ε < U ω) => (by linarith [hlo ω] : p < V ω)
      linarith
  rw [abs_le, abs_le]
  refine ⟨⟨?_, ?_⟩, ?_, ?_⟩
  · rcases le_or_gt ε p with h | h
    · linarith [(down h).1]
    · linarith
  · rcases le_or_gt (p + ε) 1 with h | h
    · linarith [(up h).1]
    · linarith
  · rcases le_or_gt (p + ε) 1 with h | h
    · linarith [(up h).2]
    · linarith
  · rcases le_or_gt ε p with h | h
    · linarith [(down h).2]
    · linarith

/-- Scores of a normal deviation. -/
theorem chiSquaredCdfVector_uniform (b : Build) {n : Nat} (hn : 0 < n) (llt : Llt n) {D : Ω → Fin n → ℝ}
    {S : Matrix (Fin n) (Fin n) ℝ} (hS : S.PosDef) (hD : IsNormal P D 0 S) :
    ∃ V : Ω → ℝ, (∀ ω, chiSquaredCdfVector b llt (D ω) S = .ok (.fin (V ω))) ∧
    ∀ p : ℝ, 0 ≤ p → p ≤ 1 →
      (|P.real {ω | V ω ≤ p} - p| ≤ 7 / 10 ^ 5 ∧ |P.real {ω | p < V ω} - (1 - p)| ≤ 7 / 10 ^ 5) ∧
      (n < 20 ∨ 40 ≤ n →
        |P.real {ω | V ω ≤ p} - p| ≤ 1 / 10 ^ 6 ∧ |P.real {ω | p < V ω} - (1 - p)| ≤ 1 / 10 ^ 6) := by
  have : Nonempty (Fin n) := ⟨⟨0, hn⟩⟩
  have hl := llt.mul S hS
  have hd := llt.det S hS
  set q : Ω → ℝ := fun ω => ∑ i, ((llt.factor S)⁻¹ *ᵥ D ω) i ^ 2 with hq
  have hq0 : ∀ ω, 0 ≤ q ω := fun ω => Finset.sum_nonneg fun i _ => sq_nonneg _
  choose V hV h1 h2 using fun ω => chiSquaredCdf_near b hn (hq0 ω)
  have hu : ∀ p : ℝ, 0 ≤ p → p ≤ 1 → P.real {ω | chiCdf n (q ω) ≤ p} = p := by
    intro p h0 h1
    have := hD.mahalanobis_uniform hl hd h0 h1
    simpa only [sub_zero, Fintype.card_fin] using this
  have hg : ∀ p : ℝ, 0 ≤ p → p ≤ 1 → P.real {ω | p < chiCdf n (q ω)} = 1 - p := by
    intro p h0 h1
    have := hD.mahalanobis_uniform_gt hl hd h0 h1
    simpa only [sub_zero, Fintype.card_fin] using this
  refine ⟨V, hV, fun p hp hp1 => ⟨near_uniform (by norm_num) h1 hu hg hp hp1, fun h => ?_⟩⟩
  exact near_uniform (by norm_num) (fun ω => h2 ω h) hu hg hp hp1

/-- The score of a prediction and a truth of the same size. -/
theorem chiSquaredJoint_same (b : Build) (llt : (d : Nat) → Llt d) {n : Nat} (pred : Joint (Fin n)) (truth : Marginal (Fin n)) :
    chiSquaredJoint b llt ⟨n, pred⟩ ⟨n, truth⟩ =
      chiSquaredCdfVector b (llt n) (fun i => pred.mean i - truth.mean i)
        (pred.covariance + diagonal truth.variance) := by
  unfold chiSquaredJoint
  rw [dif_pos rfl]
  rfl

/-- The deviations of a truth that comes from the predicted distribution. -/
theorem deviation_normal {n : Nat} {μ : Fin n → ℝ} {S : Matrix (Fin n) (Fin n) ℝ} {Y : Ω → Fin n → ℝ}
    (hY : IsNormal P Y μ S) : IsNormal P (fun ω i => μ i - Y ω i) 0 S := by
  have h := hY.affine (-1 : Matrix (Fin n) (Fin n) ℝ) μ
  have e1 : (-1 : Matrix (Fin n) (Fin n) ℝ) *ᵥ μ + μ = 0 := by
    rw [Matrix.neg_mulVec, Matrix.one_mulVec, neg_add_cancel]
  have e2 : (-1 : Matrix (Fin n) (Fin n) ℝ) * S * (-1 : Matrix (Fin n) (Fin n) ℝ)ᵀ = S := by
    simp
  rw [e1, e2] at h
  have e3 : (fun ω => (-1 : Matrix (Fin n) (Fin n) ℝ) *ᵥ Y ω + μ) = fun ω i => μ i - Y ω i := by
    funext ω i
    simp only [Matrix.neg_mulVec, Matrix.one_mulVec, Pi.add_apply, Pi.neg_apply]
    ring
  rwa [e3] at h

/-- **C119**: if the truth comes from the predicted distribution (with the measurement variances of the truth added), the
chi squared score of the prediction is always a number and is uniformly distributed on the unit interval, to within
`7e-5` (`1e-6` unless `20 ≤ n < 40`). -/
theorem C119_uniform (b : Build) (llt : (d : Nat) → Llt d) {n : Nat} (hn : 0 < n) (pred : Joint (Fin n))
    (variance : Fin n → ℝ) (hS : (pred.covariance + diagonal variance).PosDef) {Y : Ω → Fin n → ℝ}
    (hY : IsNormal P Y pred.mean (pred.covariance + diagonal variance)) :
    ∃ V : Ω → ℝ, (∀ ω, chiSquaredJoint b llt ⟨n, pred⟩ ⟨n, Y ω, variance⟩ = .ok (.fin (V ω))) ∧
    ∀ p : ℝ, 0 ≤ p → p ≤ 1 →
      (|P.real {ω | V ω ≤ p} - p| ≤ 7 / 10 ^ 5 ∧ |P.real {ω | p < V ω} - (1 - p)| ≤ 7 / 10 ^ 5) ∧
      (n < 20 ∨ 40 ≤ n →
        |P.real {ω | V ω ≤ p} - p| ≤ 1 / 10 ^ 6 ∧ |P.real {ω | p < V ω} - (1 - p)| ≤ 1 / 10 ^ 6) := by
  simp only [chiSquaredJoint_same]
  exact chiSquaredCdfVector_uniform b hn (llt n) hS (deviation_normal hY)

/-- The candidate check in terms of the score. -/
theorem candidate_iff (b : Build) (llt : (d : Nat) → Llt d) {t v : ℝ} {pred : DynJoint} {truth : DynMarginal}
    (h : chiSquaredJoint b llt pred truth = .ok (.fin v)) :
    (chiSquaredIsValidCandidate b llt (.fin t) pred truth = .ok true ↔ v ≤ t) ∧
    (chiSquaredIsValidCandidate b llt (.fin t) pred truth = .ok false ↔ t < v) := by
  unfold chiSquaredIsValidCandidate
  rw [h, except_ok_bind, except_pure]
  by_cases hv : v ≤ t
  · rw [decide_eq_true (by rw [Dbl.fin_le]; exact hv)]
    simp [hv, not_lt.2 hv]
  · rw [decide_eq_false (by rw [Dbl.fin_le]; exact hv)]
    simp [hv, not_le.1 hv]

/-- **C119**: the candidate check of the Gaussian process RANSAC accepts a right prediction with the probability of its
threshold, to within `7e-5`, and otherwise rejects it; with the default threshold it rejects one in a thousand. -/
theorem C119_candidate (b : Build) (llt : (d : Nat) → Llt d) {n : Nat} (hn : 0 < n) (pred : Joint (Fin n))
    (variance : Fin n → ℝ) (hS : (pred.covariance + diagonal variance).PosDef) {Y : Ω → Fin n → ℝ}
    (hY : IsNormal P Y pred.mean (pred.covariance + diagonal variance)) :
    (∀ t : ℝ, 0 ≤ t → t ≤ 1 →
      |P.real {ω | chiSquaredIsValidCandidate b llt (.fin t) ⟨n, pred⟩ ⟨n, Y ω, variance⟩ = .ok true} - t| ≤
        7 / 10 ^ 5 ∧
      |P.real {ω | chiSquaredIsValidCandidate b llt (.fin t) ⟨n, pred⟩ ⟨n, Y ω, variance⟩ = .ok false} - (1 - t)| ≤
        7 / 10 ^ 5) ∧
    |P.real {ω | chiSquaredIsValidCandidate b llt defaultChiSquaredThreshold ⟨n, pred⟩ ⟨n, Y ω, variance⟩ = .ok false} -
      1 / 1000| ≤ 7 / 10 ^ 5 := by
  obtain ⟨V, hV, hu⟩ := C119_uniform b llt hn pred variance hS hY
  have h : ∀ t : ℝ, 0 ≤ t → t ≤ 1 →
      |P.real {ω | chiSquaredIsValidCandidate b llt (.fin t) ⟨n, pred⟩ ⟨n, Y ω, variance⟩ = .ok true} - t| ≤
        7 / 10 ^ 5 ∧
      |P.real {ω | chiSquaredIsValidCandidate b llt (.fin t) ⟨n, pred⟩ ⟨n, Y ω, variance⟩ = .ok false} - (1 - t)| ≤
        7 / 10 ^ 5 := by
    intro t h0 h1
    simp only [fun ω => (candidate_iff b llt (t := t) (hV ω)).1, fun ω => (candidate_iff b llt (t := t) (hV ω)).2]
    exact (hu t h0 h1).1
  refine ⟨h, ?_⟩
  have := (h 0.999 (by norm_num) (by norm_num)).2
  rw [show (1 : ℝ) - 0.999 = 1 / 1000 by norm_num] at this
  exact this

/-! ## Wrong covariances -/

/-- A smaller covariance makes distances larger. -/
theorem inv_quadratic_antitone {k : Type} [Fintype k] [DecidableEq k] {S T : Matrix k k ℝ} (hS : S.PosDef) (hT : T.PosDef)
    (h : (T - S).PosSemidef) (d : k → ℝ) : d ⬝ᵥ (T⁻¹ *ᵥ d) ≤ d ⬝ᵥ (S⁻¹ *ᵥ d) := by
  have hdS : IsUnit S.det := (Matrix.isUnit_iff_isUnit_det _).1 hS.isUnit
  have hdT : IsUnit T.det := (Matrix.isUnit_iff_isUnit_det _).1 hT.isUnit
  set w := T⁻¹ *ᵥ d with hw
  set u := S⁻¹ *ᵥ d with hu
  have hSu : S *ᵥ u = d := by rw [hu, Matrix.mulVec_mulVec, Matrix.mul_nonsing_inv _ hdS, Matrix.one_mulVec]
  have hTw : T *ᵥ w = d := by rw [hw, Matrix.mulVec_mulVec, Matrix.mul_nonsing_inv _ hdT, Matrix.one_mulVec]
  have hSt : Sᵀ = S := Bures.psd_symm hS.posSemidef
  have h1 : 0 ≤ (w - u) ⬝ᵥ (S *ᵥ (w - u)) := by simpa using hS.posSemidef.dotProduct_mulVec_nonneg (w - u)
  have h2 : 0 ≤ w ⬝ᵥ ((T - S) *ᵥ w) := by simpa using h.dotProduct_mulVec_nonneg w
  have e1 : u ⬝ᵥ (S *ᵥ w) = d ⬝ᵥ w := by
    rw [Matrix.dotProduct_mulVec, ← Matrix.mulVec_transpose, hSt, hSu]
  rw [Matrix.mulVec_sub, hSu, sub_dotProduct, dotProduct_sub, dotProduct_sub, e1] at h1
  rw [Matrix.sub_mulVec, hTw, dotProduct_sub] at h2
  rw [dotProduct_comm w d] at h1 h2
  rw [dotProduct_comm u d] at h1
  linarith

/-- **C119**: a prediction that states too small a covariance is accepted with at most the probability of the threshold, one
that states too large a covariance with at least that probability (both to within `7e-5`). -/
theorem C119_wrong_covariance (b : Build) (llt : (d : Nat) → Llt d) {n : Nat} (hn : 0 < n) (pred : Joint (Fin n))
    (variance : Fin n → ℝ) (hS : (pred.covariance + diagonal variance).PosDef) {T : Matrix (Fin n) (Fin n) ℝ}
    (hT : T.PosDef) {Y : Ω → Fin n → ℝ} (hY : IsNormal P Y pred.mean T) {t : ℝ} (h0 : 0 ≤ t) (h1 : t ≤ 1) :
    ((T - (pred.covariance + diagonal variance)).PosSemidef →
      P.real {ω | chiSquaredIsValidCandidate b llt (.fin t) ⟨n, pred⟩ ⟨n, Y ω, variance⟩ = .ok true} ≤
        t + 7 / 10 ^ 5) ∧
    ((pred.covariance + diagonal variance - T).PosSemidef →
      t - 7 / 10 ^ 5 ≤
        P.real {ω | chiSquaredIsValidCandidate b llt (.fin t) ⟨n, pred⟩ ⟨n, Y ω, variance⟩ = .ok true}) := by
  have : Nonempty (Fin n) := ⟨⟨0, hn⟩⟩
  have hk : (0 : ℝ) < n := by exact_mod_cast hn
  set S := pred.covariance + diagonal variance with hSdef
  set d : Ω → Fin n → ℝ := fun ω i => pred.mean i - Y ω i with hd
  have hqS : ∀ ω, 0 ≤ d ω ⬝ᵥ (S⁻¹ *ᵥ d ω) := fun ω => (inv_quadratic_nonneg hS (d ω)).1
  have hqT : ∀ ω, 0 ≤ d ω ⬝ᵥ (T⁻¹ *ᵥ d ω) := fun ω => (inv_quadratic_nonneg hT (d ω)).1
  choose V hV hVc _ using fun ω => chiSquaredCdf_near b hn (hqS ω)
  have hcode : ∀ ω, chiSquaredJoint b llt ⟨n, pred⟩ ⟨n, Y ω, variance⟩ = .ok (.fin (V ω)) := by
    intro ω
    rw [chiSquaredJoint_same, C50_vector b (llt n) _ _ hS]
    exact hV ω
  have hset : {ω | chiSquaredIsValidCandidate b llt (.fin t) ⟨n, pred⟩ ⟨n, Y ω, variance⟩ = .ok true} =
      {ω | V ω ≤ t} := by
    ext ω
    exact (candidate_iff b llt (hcode ω)).1
  have hl := (eigenLltContract n).mul T hT
  have hu : ∀ p : ℝ, 0 ≤ p → p ≤ 1 → P.real {ω | chiCdf n (d ω ⬝ᵥ (T⁻¹ *ᵥ d ω)) ≤ p} = p := by
    intro p h0 h1
    have := (deviation_normal hY).mahalanobis_uniform hl ((eigenLltContract n).det T hT) h0 h1
    simp only [sub_zero, Fintype.card_fin, mahalanobis_eq hl] at this
    exact this
  rw [hset]
  have n1 : 0 ≤ P.real {ω | V ω ≤ t} := measureReal_nonneg
  have l1 : P.real {ω | V ω ≤ t} ≤ 1 := measureReal_le_one
  constructor
  · intro h
    rcases le_or_gt (t + 7 / 10 ^ 5) 1 with hc | hc
    · rw [← hu (t + 7 / 10 ^ 5) (by positivity) hc]
      refine measureReal_mono fun ω (hω : V ω ≤ t) => ?_
      have h2 := (chiCdf_le_iff hk (hqT ω) (hqS ω)).2 (inv_quadratic_antitone hS hT h (d ω))
      change _ ≤ t + 7 / 10 ^ 5
      linarith [(abs_le.1 (hVc ω)).1]
    · linarith
  · intro h
    rcases le_or_gt (7 / 10 ^ 5) t with hc | hc
    · rw [← hu (t - 7 / 10 ^ 5) (by linarith) (by linarith)]
      refine measureReal_mono fun ω (hω : _ ≤ t - 7 / 10 ^ 5) => ?_
      have h2 := (chiCdf_le_iff hk (hqS ω) (hqT ω)).2 (inv_quadratic_antitone hT hS h (d ω))
      change V ω ≤ t
      linarith [(abs_le.1 (hVc ω)).2]
    · linarith

/-! ## Predictions of a Gaussian process -/

/-- **C119**: the predictions a Gaussian process makes from random training data, scored against independently measured
process values: if everything comes from the model, the score is uniformly distributed. -/
theorem C119_gp {X m : Type} [Fintype m] [DecidableEq m] (b : Build) (llt : (d : Nat) → Llt d) (g : Gp X)
    (hsym : ∀ x y, g.cov x y = g.cov y x) (ldlt : Matrix m m ℝ → Ldlt m) (train : m → X) (variance : m → ℝ)
    (hF : (ldlt (obsCovariance g train variance)).Factors (obsCovariance g train variance))
    (hA : IsUnit (obsCovariance g train variance).det) {n : Nat} (hn : 0 < n) (xs : Fin n → X)
    {Z : Ω → Fin n ⊕ m → ℝ} (hZ : IsNormal P Z (jointMean g xs train) (jointCovariance g xs train variance))
    {r : Fin n → ℝ} {W : Ω → Fin n → ℝ} (hW : IsNormal P W 0 (diagonal r)) (hind : IndepFun Z W P)
    (hS : ((g.predictJoint (g.fit ldlt train ⟨0, variance⟩) xs).covariance + diagonal r).PosDef) :
    ∃ V : Ω → ℝ, (∀ ω, chiSquaredJoint b llt
        ⟨n, g.predictJoint (g.fit ldlt train ⟨fun i => Z ω (.inr i), variance⟩) xs⟩
        ⟨n, fun j => Z ω (.inl j) + W ω j, r⟩ = .ok (.fin (V ω))) ∧
    ∀ p : ℝ, 0 ≤ p → p ≤ 1 →
      |P.real {ω | V ω ≤ p} - p| ≤ 7 / 10 ^ 5 ∧ |P.real {ω | p < V ω} - (1 - p)| ≤ 7 / 10 ^ 5 := by
  have herr := (C118_normal g hsym ldlt train variance hF hA xs hZ 0).1
  have hmeas : Measurable fun z : Fin n ⊕ m → ℝ => fun j => z (.inl j) -
      (g.predictJoint (g.fit ldlt train ⟨fun i => z (.inr i), variance⟩) xs).mean j := by
    simp only [predict_eq g hsym ldlt train variance hF hA xs]
    unfold mulVec dotProduct
    fun_prop
  have hsum := herr.add hW (hind.comp hmeas measurable_id)
  rw [add_zero] at hsum
  have hneg := deviation_normal hsum
  obtain ⟨V, hV, hu⟩ := chiSquaredCdfVector_uniform b hn (llt n) hS hneg
  refine ⟨V, fun ω => ?_, fun p h0 h1 => (hu p h0 h1).1⟩
  rw [chiSquaredJoint_same, predict_covariance_const g hsym ldlt train variance hF hA xs, ← hV ω]
  congr 1
  funext j
  simp only [Pi.zero_apply, Pi.add_apply]
  ring

/-- The hypotheses can be met: a predicted standard normal pair seen with errors of variance one, and too large a
covariance. -/
example : ∃ (pred : Joint (Fin 2)) (variance : Fin 2 → ℝ) (P : Measure (EuclideanSpace ℝ (Fin 2)))
    (_ : IsProbabilityMeasure P) (Y : EuclideanSpace ℝ (Fin 2) → Fin 2 → ℝ) (T : Matrix (Fin 2) (Fin 2) ℝ),
    (pred.covariance + diagonal variance).PosDef ∧ IsNormal P Y pred.mean (pred.covariance + diagonal variance) ∧
    T.PosDef ∧ (pred.covariance + diagonal variance - T).PosSemidef ∧ pred.covariance + diagonal variance ≠ T := by
  have h : ((1 : Matrix (Fin 2) (Fin 2) ℝ) + diagonal fun _ => 1).PosDef := PosDef.one.add (by simpa using PosDef.one)
  refine ⟨⟨fun _ => 3, 1⟩, fun _ => 1, _, inferInstance, _, 1, h, exists_isNormal (fun _ => 3) h.posSemidef, PosDef.one,
    ?_, ?_⟩
  · simpa using PosSemidef.one (n := Fin 2) (R := ℝ)
  · intro hc
    have := congrFun (congrFun hc 0) 0
    simp at this

/-- A normal vector and an independent one. -/
theorem exists_independent_normal {k l : Type} [Fintype k] [DecidableEq k] [Fintype l] [DecidableEq l] (μ : k → ℝ)
    {S : Matrix k k ℝ} (hS : S.PosSemidef) (ν : l → ℝ) {R : Matrix l l ℝ} (hR : R.PosSemidef) :
    IsNormal ((multivariateGaussian (WithLp.toLp 2 μ) S).prod (multivariateGaussian (WithLp.toLp 2 ν) R))
      (fun x => WithLp.ofLp x.1) μ S ∧
    IsNormal ((multivariateGaussian (WithLp.toLp 2 μ) S).prod (multivariateGaussian (WithLp.toLp 2 ν) R))
      (fun x => WithLp.ofLp x.2) ν R ∧
    IndepFun (fun x : EuclideanSpace ℝ k × EuclideanSpace ℝ l => WithLp.ofLp x.1) (fun x => WithLp.ofLp x.2)
      ((multivariateGaussian (WithLp.toLp 2 μ) S).prod (multivariateGaussian (WithLp.toLp 2 ν) R)) := by
  have hk : Measurable (fun v : EuclideanSpace ℝ k => (WithLp.ofLp v : k → ℝ)) := (PiLp.continuous_ofLp 2 _).measurable
  have hl : Measurable (fun v : EuclideanSpace ℝ l => (WithLp.ofLp v : l → ℝ)) := (PiLp.continuous_ofLp 2 _).measurable
  refine ⟨⟨hS, (hk.comp measurable_fst).aemeasurable, ?_⟩, ⟨hR, (hl.comp measurable_snd).aemeasurable, ?_⟩,
    indepFun_prod hk hl⟩
  · exact (Measure.map_fst_prod).trans (by simp)
  · exact (Measure.map_snd_prod).trans (by simp)

/-- The hypotheses of `C119_gp` can be met. -/
example : ∃ (ldlt : Matrix (Fin 2) (Fin 2) ℝ → Ldlt (Fin 2))
    (P : Measure (EuclideanSpace ℝ (Fin 1 ⊕ Fin 2) × EuclideanSpace ℝ (Fin 1))) (_ : IsProbabilityMeasure P)
    (Z : EuclideanSpace ℝ (Fin 1 ⊕ Fin 2) × EuclideanSpace ℝ (Fin 1) → Fin 1 ⊕ Fin 2 → ℝ)
    (W : EuclideanSpace ℝ (Fin 1 ⊕ Fin 2) × EuclideanSpace ℝ (Fin 1) → Fin 1 → ℝ),
    (ldlt (obsCovariance oneGp (fun _ : Fin 2 => ()) fun _ => 1)).Factors
      (obsCovariance oneGp (fun _ : Fin 2 => ()) fun _ => 1) ∧
    IsUnit (obsCovariance oneGp (fun _ : Fin 2 => ()) fun _ => 1).det ∧
    IsNormal P Z (jointMean oneGp (fun _ => ()) fun _ => ())
      (jointCovariance oneGp (fun _ => ()) (fun _ => ()) fun _ => 1) ∧
    IsNormal P W 0 (diagonal fun _ => 1) ∧ IndepFun Z W P ∧
    ((oneGp.predictJoint (oneGp.fit ldlt (fun _ => ()) ⟨0, fun _ => 1⟩) fun _ : Fin 1 => ()).covariance +
      diagonal fun _ => 1).PosDef := by
  obtain ⟨ldlt, hl⟩ := exists_ldlt (Fin 2)
  have hu : IsUnit (obsCovariance oneGp (fun _ : Fin 2 => ()) fun _ => 1).det :=
    (Matrix.isUnit_iff_isUnit_det _).1 oneGp_obs.isUnit
  have hR : (diagonal fun _ : Fin 1 => (1 : ℝ)).PosSemidef := PosSemidef.diagonal fun _ => zero_le_one
  obtain ⟨hZ, hW, hi⟩ := exists_independent_normal (jointMean oneGp (fun _ : Fin 1 => ()) fun _ : Fin 2 => ()) oneGp_joint
    (0 : Fin 1 → ℝ) hR
  refine ⟨ldlt, _, inferInstance, _, _, hl _ oneGp_obs, hu, hZ, hW, hi, ?_⟩
  have h := (C118_normal oneGp (fun _ _ => rfl) ldlt (fun _ => ()) (fun _ => 1) (hl _ oneGp_obs) hu (fun _ => ()) hZ 0).1.1
  exact PosDef.posSemidef_add h (by simpa using PosDef.one)

end Albatross

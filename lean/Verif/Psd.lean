import Mathlib.Analysis.Matrix.Order
import Mathlib.Analysis.InnerProductSpace.GramMatrix
import Mathlib.Analysis.Normed.Algebra.Exponential
import Mathlib.Analysis.SpecialFunctions.Exponential
import Mathlib.MeasureTheory.Integral.Bochner.Set
import Mathlib.MeasureTheory.Measure.Lebesgue.Basic
import Mathlib.MeasureTheory.Group.Integral
import Mathlib.MeasureTheory.Measure.Lebesgue.EqHaar
import Mathlib.Analysis.SpecialFunctions.Gamma.Basic
import Mathlib.Topology.Algebra.InfiniteSum.Order

/-! # Positive semi-definite kernels: the specification and its closure properties -/

namespace Albatross

/-- A symmetric positive semi-definite kernel: `Σᵢⱼ wᵢ wⱼ k(xᵢ, xⱼ) ≥ 0` for every finite family of points
and weights. -/
def IsPSD {X : Type} (k : X → X → ℝ) : Prop :=
  (∀ x y, k x y = k y x) ∧
  ∀ (n : Nat) (x : Fin n → X) (w : Fin n → ℝ), 0 ≤ ∑ i, ∑ j, w i * w j * k (x i) (x j)

namespace IsPSD

variable {X Y : Type} {k l : X → X → ℝ}

theorem matrix (h : IsPSD k) (n : Nat) (x : Fin n → X) :
    (Matrix.of fun i j => k (x i) (x j)).PosSemidef := by
  refine Matrix.PosSemidef.of_dotProduct_mulVec_nonneg ?_ ?_
  · ext i j
    simp [h.1 (x j) (x i)]
  · intro w
    have := h.2 n x w
    simp only [dotProduct, Matrix.mulVec, Matrix.of_apply, Pi.star_apply, star_trivial]
    refine this.trans_eq ?_
    refine Finset.sum_congr rfl fun i _ => ?_
    rw [Finset.mul_sum]
    exact Finset.sum_congr rfl fun j _ => by ring

theorem of_matrix (h : ∀ (n : Nat) (x : Fin n → X), (Matrix.of fun i j => k (x i) (x j)).PosSemidef) :
    IsPSD k := by
  refine ⟨fun x y => ?_, fun n x w => ?_⟩
  · have := (h 2 ![x, y]).1.apply 1 0
    simpa using this
  · have := (h n x).dotProduct_mulVec_nonneg w
    simp only [dotProduct, Matrix.mulVec, Matrix.of_apply, Pi.star_apply, star_trivial] at this
    refine this.trans_eq ?_
    refine Finset.sum_congr rfl fun i _ => ?_
    rw [Finset.mul_sum]
    exact Finset.sum_congr rfl fun j _ => by ring

theorem add (hk : IsPSD k) (hl : IsPSD l) : IsPSD fun x y => k x y + l x y := by
  refine ⟨fun x y => congrArg₂ (· + ·) (hk.1 x y) (hl.1 x y), fun n x w => ?_⟩
  have := add_nonneg (hk.2 n x w) (hl.2 n x w)
  refine this.trans_eq ?_
  rw [← Finset.sum_add_distrib]
  refine Finset.sum_congr rfl fun i _ => ?_
  rw [← Finset.sum_add_distrib]
  exact Finset.sum_congr rfl fun j _ => by ring

theorem mul (hk : IsPSD k) (hl : IsPSD l) : IsPSD fun x y => k x y * l x y :=
  of_matrix fun n x => (hk.matrix n x).hadamard (hl.matrix n x)

theorem rank_one (f : X → ℝ) : IsPSD fun x y => f x * f y := by
  refine ⟨fun x y => mul_comm _ _, fun n x w => ?_⟩
  have : ∑ i, ∑ j, w i * w j * (f (x i) * f (x j)) = (∑ i, w i * f (x i)) ^ 2 := by
    rw [sq, Finset.sum_mul_sum]
    exact Finset.sum_congr rfl fun i _ => Finset.sum_congr rfl fun j _ => by ring
  rw [this]
  exact sq_nonneg _

theorem zero : IsPSD (fun _ _ : X => (0 : ℝ)) :=
  ⟨fun _ _ => rfl, fun n x w => by simp⟩

theorem const {c : ℝ} (hc : 0 ≤ c) : IsPSD (fun _ _ : X => c) := by
  have := rank_one (X := X) fun _ => Real.sqrt c
  simpa [Real.mul_self_sqrt hc] using this

theorem smul (hk : IsPSD k) {c : ℝ} (hc : 0 ≤ c) : IsPSD fun x y => c * k x y :=
  (const hc).mul hk

theorem comp (hk : IsPSD k) (f : Y → X) : IsPSD fun x y => k (f x) (f y) :=
  ⟨fun _ _ => hk.1 _ _, fun n x w => hk.2 n (fun i => f (x i)) w⟩

theorem pow (hk : IsPSD k) (m : Nat) : IsPSD fun x y => k x y ^ m := by
  induction m with
  | zero => simpa using const (X := X) (zero_le_one (α := ℝ))
  | succ m ih => simpa only [pow_succ] using ih.mul hk

theorem finset_sum {ι : Type} (s : Finset ι) (k : ι → X → X → ℝ) (h : ∀ i ∈ s, IsPSD (k i)) :
    IsPSD fun x y => ∑ i ∈ s, k i x y := by
  classical
  induction s using Finset.induction_on with
  | empty => simpa using zero
  | insert a s ha ih =>
    simp only [Finset.sum_insert ha]
    exact (h a (Finset.mem_insert_self _ _)).add (ih fun i hi => h i (Finset.mem_insert_of_mem hi))

theorem limit {k : ℕ → X → X → ℝ} {l : X → X → ℝ} (h : ∀ m, IsPSD (k m))
    (hl : ∀ x y, Filter.Tendsto (fun m => k m x y) Filter.atTop (nhds (l x y))) : IsPSD l := by
  refine ⟨fun x y => ?_, fun n x w => ?_⟩
  · refine tendsto_nhds_unique (hl x y) ?_
    simpa only [(h _).1 x y] using hl y x
  · refine ge_of_tendsto' (x := Filter.atTop)
      (f := fun m => ∑ i, ∑ j, w i * w j * k m (x i) (x j)) ?_ fun m => (h m).2 n x w
    exact tendsto_finsetSum _ fun i _ => tendsto_finsetSum _ fun j _ => (hl _ _).const_mul _

theorem exp (hk : IsPSD k) : IsPSD fun x y => Real.exp (k x y) := by
  refine limit (k := fun m x y => ∑ i ∈ Finset.range m, k x y ^ i / (i.factorial : ℝ)) ?_ ?_
  · intro m
    refine finset_sum _ (fun i x y => k x y ^ i / (i.factorial : ℝ)) fun i _ => ?_
    have := (hk.pow i).smul (c := 1 / (i.factorial : ℝ)) (by positivity)
    refine cast (congrArg IsPSD ?_) this
    funext x y
    ring
  · intro x y
    have := NormedSpace.expSeries_div_hasSum_exp (k x y)
    rw [← Real.exp_eq_exp_ℝ] at this
    exact this.tendsto_sum_nat

/-- Cauchy-Schwarz: the value is bounded by the diagonal. -/
theorem sq_le (hk : IsPSD k) (x y : X) : k x y ^ 2 ≤ k x x * k y y := by
  have key : ∀ a b : ℝ, 0 ≤ a * a * k x x + 2 * (a * b) * k x y + b * b * k y y := by
    intro a b
    have := hk.2 2 ![x, y] ![a, b]
    simp only [Fin.sum_univ_two, Matrix.cons_val_zero, Matrix.cons_val_one, hk.1 y x] at this
    linarith
  have h1 := hk.2 1 ![y] ![1]
  simp at h1
  rcases h1.eq_or_lt with h0 | h0
  · have h3 := key (k x y) (-(k x x + 1))
    have hx := hk.2 1 ![x] ![1]
    simp at hx
    rw [← h0] at h3 ⊢
    nlinarith
  · have h3 := key (k y y) (-(k x y))
    have : 0 ≤ k y y * (k x x * k y y - k x y ^ 2) := by nlinarith
    have := nonneg_of_mul_nonneg_right this h0
    linarith

theorem diag_nonneg (hk : IsPSD k) (x : X) : 0 ≤ k x x := by
  have := hk.2 1 ![x] ![1]
  simpa using this

/-- Kernels given by an integral of rank one kernels. -/
theorem of_integral {Ω : Type} [MeasurableSpace Ω] (μ : MeasureTheory.Measure Ω) (f : X → Ω → ℝ)
    (hf : ∀ x y, MeasureTheory.Integrable (fun t => f x t * f y t) μ) :
    IsPSD fun x y => ∫ t, f x t * f y t ∂μ := by
  refine ⟨fun x y => by simp only [mul_comm], fun n x w => ?_⟩
  have : ∑ i, ∑ j, w i * w j * ∫ t, f (x i) t * f (x j) t ∂μ =
      ∫ t, (∑ i, w i * f (x i) t) ^ 2 ∂μ := by
    have e : ∀ t, (∑ i, w i * f (x i) t) ^ 2 = ∑ i, ∑ j, w i * w j * (f (x i) t * f (x j) t) := by
      intro t
      rw [sq, Finset.sum_mul_sum]
      exact Finset.sum_congr rfl fun i _ => Finset.sum_congr rfl fun j _ => by ring
    simp only [e]
    rw [MeasureTheory.integral_finsetSum _ fun i _ =>
      MeasureTheory.integrable_finsetSum _ fun j _ => (hf _ _).const_mul _]
    refine Finset.sum_congr rfl fun i _ => ?_
    rw [MeasureTheory.integral_finsetSum _ fun j _ => (hf _ _).const_mul _]
    exact Finset.sum_congr rfl fun j _ => (MeasureTheory.integral_const_mul _ _).symm
  rw [this]
  exact MeasureTheory.integral_nonneg fun t => sq_nonneg _

/-- Moving averages of white noise: `∫_{u>0} g(u) g(u + |x - y|) du`. -/
theorem moving_average (g : ℝ → ℝ)
    (hg : ∀ d, 0 ≤ d → MeasureTheory.IntegrableOn (fun u => g u * g (u + d)) (Set.Ioi 0)) :
    IsPSD fun x y : ℝ => ∫ u in Set.Ioi 0, g u * g (u + |x - y|) := by
  let f : ℝ → ℝ → ℝ := fun x t => (Set.Ioi (0 : ℝ)).indicator g (x - t)
  have e : ∀ x y : ℝ, x ≤ y → (fun t => f x t * f y t) =
      fun t => (Set.Ioi (0 : ℝ)).indicator (fun u => g u * g (u + |x - y|)) (x - t) := by
    intro x y h
    funext t
    have ha : |x - y| = y - x := by rw [abs_of_nonpos (by linarith)]; ring
    rw [ha]
    show (Set.Ioi (0 : ℝ)).indicator g (x - t) * (Set.Ioi (0 : ℝ)).indicator g (y - t) = _
    by_cases h0 : 0 < x - t
    · have h1 : 0 < y - t := by linarith
      rw [Set.indicator_of_mem (by exact h0), Set.indicator_of_mem (by exact h1),
        Set.indicator_of_mem (by exact h0)]
      congr 2
      ring
    · have h1 : x - t ∉ Set.Ioi (0 : ℝ) := h0
      rw [Set.indicator_of_notMem h1, Set.indicator_of_notMem h1, zero_mul]
  have hint : ∀ x y : ℝ, x ≤ y → MeasureTheory.Integrable (fun t => f x t * f y t) := by
    intro x y h
    rw [e x y h]
    have := (MeasureTheory.integrable_indicator_iff measurableSet_Ioi).2 (hg |x - y| (abs_nonneg _))
    exact this.comp_sub_left x
  have hval : ∀ x y : ℝ, x ≤ y → ∫ t, f x t * f y t = ∫ u in Set.Ioi 0, g u * g (u + |x - y|) := by
    intro x y h
    rw [e x y h, MeasureTheory.integral_sub_left_eq_self
      (fun u => (Set.Ioi (0 : ℝ)).indicator (fun u => g u * g (u + |x - y|)) u)
      MeasureTheory.volume x, MeasureTheory.integral_indicator measurableSet_Ioi]
  have h := of_integral (X := ℝ) MeasureTheory.volume f (by
    intro x y
    rcases le_total x y with h | h
    · exact hint x y h
    · simpa only [mul_comm] using hint y x h)
  refine cast (congrArg IsPSD ?_) h
  funext x y
  rcases le_total x y with h | h
  · exact hval x y h
  · rw [abs_sub_comm, ← hval y x h]
    simp only [mul_comm]

theorem integrable_pow_exp (n : Nat) :
    MeasureTheory.IntegrableOn (fun u : ℝ => u ^ n * Real.exp (-u)) (Set.Ioi 0) := by
  have := Real.GammaIntegral_convergent (s := (n : ℝ) + 1) (by positivity)
  simpa [mul_comm] using this

theorem integral_pow_exp (n : Nat) :
    ∫ u in Set.Ioi (0 : ℝ), u ^ n * Real.exp (-u) = n.factorial := by
  have := Real.Gamma_eq_integral (s := (n : ℝ) + 1) (by positivity)
  rw [Real.Gamma_nat_eq_factorial] at this
  rw [this]
  simp [mul_comm]

/-- `e^{-|x-y|}` -/
theorem exponential : IsPSD fun x y : ℝ => Real.exp (-|x - y|) := by
  have key : ∀ d : ℝ, (fun u : ℝ => Real.exp (-u / 2) * Real.exp (-(u + d) / 2)) =
      fun u => Real.exp (-(d / 2)) * (u ^ 0 * Real.exp (-u)) := by
    intro d; funext u
    rw [pow_zero, one_mul, ← Real.exp_add, ← Real.exp_add]
    congr 1; ring
  have h := moving_average (fun u => Real.exp (-u / 2)) (fun d _ => by
    rw [key]; exact (integrable_pow_exp 0).const_mul _)
  refine cast (congrArg IsPSD ?_) (h.comp fun x : ℝ => 2 * x)
  funext x y
  simp only [key]
  rw [MeasureTheory.integral_const_mul, integral_pow_exp, ← mul_sub, abs_mul]
  simp

/-- `(1 + |x-y|) e^{-|x-y|}` -/
theorem matern_32 : IsPSD fun x y : ℝ => (1 + |x - y|) * Real.exp (-|x - y|) := by
  have key : ∀ d : ℝ, (fun u : ℝ => (u * Real.exp (-u / 2)) * ((u + d) * Real.exp (-(u + d) / 2))) =
      fun u => Real.exp (-(d / 2)) * (u ^ 2 * Real.exp (-u)) +
        d * Real.exp (-(d / 2)) * (u ^ 1 * Real.exp (-u)) := by
    intro d; funext u
    have : Real.exp (-u / 2) * Real.exp (-(u + d) / 2) = Real.exp (-(d / 2)) * Real.exp (-u) := by
      rw [← Real.exp_add, ← Real.exp_add]; congr 1; ring
    linear_combination (u * (u + d)) * this
  have h := moving_average (fun u => u * Real.exp (-u / 2)) (fun d _ => by
    rw [key]
    exact ((integrable_pow_exp 2).const_mul _).add ((integrable_pow_exp 1).const_mul _))
  refine cast (congrArg IsPSD ?_) ((h.comp fun x : ℝ => 2 * x).smul (c := 1 / 2) (by norm_num))
  funext x y
  simp only [key]
  rw [MeasureTheory.integral_add ((integrable_pow_exp 2).const_mul _)
    ((integrable_pow_exp 1).const_mul _)]
  simp only [MeasureTheory.integral_const_mul, integral_pow_exp, ← mul_sub, abs_mul]
  simp [Nat.factorial]
  ring

/-- `(1 + |x-y| + |x-y|²/3) e^{-|x-y|}` -/
theorem matern_52 :
    IsPSD fun x y : ℝ => (1 + |x - y| + |x - y| * |x - y| / 3) * Real.exp (-|x - y|) := by
  have key : ∀ d : ℝ,
      (fun u : ℝ => (u ^ 2 * Real.exp (-u / 2)) * ((u + d) ^ 2 * Real.exp (-(u + d) / 2))) =
      fun u => (Real.exp (-(d / 2)) * (u ^ 4 * Real.exp (-u)) +
        2 * d * Real.exp (-(d / 2)) * (u ^ 3 * Real.exp (-u))) +
        d ^ 2 * Real.exp (-(d / 2)) * (u ^ 2 * Real.exp (-u)) := by
    intro d; funext u
    have : Real.exp (-u / 2) * Real.exp (-(u + d) / 2) = Real.exp (-(d / 2)) * Real.exp (-u) := by
      rw [← Real.exp_add, ← Real.exp_add]; congr 1; ring
    linear_combination (u ^ 2 * (u + d) ^ 2) * this
  have i4 := fun d : ℝ => (integrable_pow_exp 4).const_mul (Real.exp (-(d / 2)))
  have i3 := fun d : ℝ => (integrable_pow_exp 3).const_mul (2 * d * Real.exp (-(d / 2)))
  have i2 := fun d : ℝ => (integrable_pow_exp 2).const_mul (d ^ 2 * Real.exp (-(d / 2)))
  have i43 : ∀ d : ℝ, MeasureTheory.IntegrableOn (fun u => Real.exp (-(d / 2)) * (u ^ 4 * Real.exp (-u)) +
        2 * d * Real.exp (-(d / 2)) * (u ^ 3 * Real.exp (-u))) (Set.Ioi 0) :=
    fun d => (i4 d).add (i3 d)
  have h := moving_average (fun u => u ^ 2 * Real.exp (-u / 2)) (fun d _ => by
    rw [key]
    exact ((i4 d).add (i3 d)).add (i2 d))
  refine cast (congrArg IsPSD ?_) ((h.comp fun x : ℝ => 2 * x).smul (c := 1 / 24) (by norm_num))
  funext x y
  simp only [key]
  rw [MeasureTheory.integral_add (i43 _) (i2 _), MeasureTheory.integral_add (i4 _) (i3 _)]
  simp only [MeasureTheory.integral_const_mul, integral_pow_exp, ← mul_sub, abs_mul]
  simp [Nat.factorial]
  have := abs_mul_abs_self (x - y)
  linear_combination (Real.exp (-|x - y|) / 3) * this

end IsPSD
end Albatross

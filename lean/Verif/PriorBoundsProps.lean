import Verif.PriorsProps

/-! # C94: the bounds of a prior against the support of its log density -/

namespace Albatross

/-! ## Specification vocabulary -/

/-- `x` lies between the bounds of the prior. -/
def InBounds (p : Prior) (x : ℝ) : Prop := p.lower ≤ Dbl.fin x ∧ Dbl.fin x ≤ p.upper

/-- The log density at `x` is a number, neither `-inf` nor NaN. -/
def HasDensity (p : Prior) (x : ℝ) : Prop := ∃ r : ℝ, p.logPdf (.fin x) = .fin r

/-- The parameters of the prior are finite, in order, and standard deviations positive. -/
def Prior.Proper : Prior → Prop
  | .uniform l u => ∃ l' u' : ℝ, l = .fin l' ∧ u = .fin u' ∧ l' < u'
  | .logScaleUniform l u => ∃ l' u' : ℝ, l = .fin l' ∧ u = .fin u' ∧ 0 < l' ∧ l' < u'
  | .gaussian m s => ∃ m' s' : ℝ, m = .fin m' ∧ s = .fin s' ∧ 0 < s'
  | .positiveGaussian m s => ∃ m' s' : ℝ, m = .fin m' ∧ s = .fin s' ∧ 0 < s'
  | .logNormal m s => ∃ m' s' : ℝ, m = .fin m' ∧ s = .fin s' ∧ 0 < s'
  | _ => True

def Prior.IsLogNormal : Prior → Prop
  | .logNormal _ _ => True
  | _ => False

/-! ## The properties -/

/-- C94: the bounds themselves. -/
theorem C94_bounds (x : ℝ) :
    InBounds .uninformative x ∧ InBounds .fixed x ∧
    (InBounds .positive x ↔ (2⁻¹ : ℝ) ^ 52 ≤ x) ∧ (InBounds .nonNegative x ↔ 0 ≤ x) ∧
    (∀ l u : ℝ, (InBounds (.uniform (.fin l) (.fin u)) x ↔ l ≤ x ∧ x ≤ u) ∧
      (InBounds (.logScaleUniform (.fin l) (.fin u)) x ↔ l ≤ x ∧ x ≤ u)) ∧
    (∀ mu sigma : Dbl, InBounds (.gaussian mu sigma) x ∧ InBounds (.logNormal mu sigma) x) ∧
    (∀ mu sigma : ℝ, InBounds (.positiveGaussian (.fin mu) (.fin sigma)) x ↔ 0 ≤ x ∧ x ≤ 10 * sigma) := by
  simp [InBounds, Prior.lower, Prior.upper, Prior.epsilon]

/-- C94.  Full claim: inside its bounds every properly built prior has a finite log density.  Proved for all but
the log normal prior, for which it is false (`C94_log_normal_false`). -/
theorem C94_in_bounds_has_density_partial (p : Prior) (hp : p.Proper) (hn : ¬ p.IsLogNormal) (x : ℝ)
    (hx : InBounds p x) : HasDensity p x := by
  cases p with
  | uninformative => exact ⟨0, rfl⟩
  | fixed => exact ⟨0, rfl⟩
  | positive =>
    have h := (C94_bounds x).2.2.1.1 hx
    have : 0 < x := lt_of_lt_of_le (by positivity) h
    exact ⟨0, by simp [Prior.logPdf, this]⟩
  | nonNegative =>
    have h := (C94_bounds x).2.2.2.1.1 hx
    exact ⟨0, by simp [Prior.logPdf, h]⟩
  | uniform l u =>
    obtain ⟨l, u, rfl, rfl, hlu⟩ := hp
    have h := ((C94_bounds x).2.2.2.2.1 l u).1.1 hx
    exact ⟨_, ((C42_uniform l u hlu).1 x h.1 h.2).1⟩
  | logScaleUniform l u =>
    obtain ⟨l, u, rfl, rfl, -, hlu⟩ := hp
    have h := ((C94_bounds x).2.2.2.2.1 l u).2.1 hx
    exact ⟨_, ((C42_uniform l u hlu).1 x h.1 h.2).2⟩
  | gaussian m s =>
    obtain ⟨m, s, rfl, rfl, hs⟩ := hp
    exact ⟨_, gaussian_logPdf m s x hs⟩
  | positiveGaussian m s =>
    obtain ⟨m, s, rfl, rfl, hs⟩ := hp
    exact ⟨_, positiveGaussian_logPdf m s x hs⟩
  | logNormal m s => exact absurd trivial hn

example : (Prior.uniform (.fin 1) (.fin 4)).Proper ∧ ¬ (Prior.uniform (.fin 1) (.fin 4)).IsLogNormal ∧
    InBounds (.uniform (.fin 1) (.fin 4)) 2 :=
  ⟨⟨1, 4, rfl, rfl, by norm_num⟩, id, ((C94_bounds 2).2.2.2.2.1 1 4).1.2 (by norm_num)⟩

/-- C94 fails for the log normal prior: it has no bounds, but its log density is NaN at every `x ≤ 0`. -/
theorem C94_log_normal_false (mu sigma x : ℝ) (hs : 0 < sigma) (hx : x ≤ 0) :
    InBounds (.logNormal (.fin mu) (.fin sigma)) x ∧ (Prior.logNormal (.fin mu) (.fin sigma)).logPdf (.fin x) = .nan := by
  refine ⟨((C94_bounds x).2.2.2.2.2.1 _ _).2, ?_⟩
  rcases hx.lt_or_eq with h | h
  · have h1 : Dbl.log (.fin x) = .nan := by
      unfold Dbl.log
      simp [h.not_gt, h.ne]
    simp only [Prior.logPdf, h1, Dbl.log_fin hs, Dbl.fin_mul, Dbl.fin_sub]
    rfl
  · subst h
    exact C42_log_normal_at_zero mu sigma hs

example : (0 : ℝ) < 1 ∧ (-1 : ℝ) ≤ 0 := by norm_num

/-- C94: the uniform priors and the non-negative prior have density exactly between their bounds. -/
theorem C94_support_is_bounds (x : ℝ) :
    (HasDensity .nonNegative x ↔ InBounds .nonNegative x) ∧
    ∀ l u : ℝ, l < u → (HasDensity (.uniform (.fin l) (.fin u)) x ↔ InBounds (.uniform (.fin l) (.fin u)) x) ∧
      (HasDensity (.logScaleUniform (.fin l) (.fin u)) x ↔ InBounds (.logScaleUniform (.fin l) (.fin u)) x) := by
  refine ⟨?_, fun l u h => ?_⟩
  · rw [(C94_bounds x).2.2.2.1]
    constructor
    · rintro ⟨r, hr⟩
      by_contra hn
      simp [Prior.logPdf, hn] at hr
    · intro hx
      exact ⟨0, by simp [Prior.logPdf, hx]⟩
  · obtain ⟨h1, h2⟩ := (C94_bounds x).2.2.2.2.1 l u
    rw [h1, h2]
    have hin := (C42_uniform l u h).1 x
    have hout := (C42_uniform l u h).2.1 x
    constructor
    · constructor
      · rintro ⟨r, hr⟩
        by_contra hn
        have := (hout (by
          by_contra hc
          push Not at hc
          exact hn hc)).1
        rw [this] at hr
        exact absurd hr (by simp)
      · rintro ⟨a, b⟩
        exact ⟨_, (hin a b).1⟩
    · constructor
      · rintro ⟨r, hr⟩
        by_contra hn
        have := (hout (by
          by_contra hc
          push Not at hc
          exact hn hc)).2
        rw [this] at hr
        exact absurd hr (by simp)
      · rintro ⟨a, b⟩
        exact ⟨_, (hin a b).2⟩

/-- C94 fails the other way round for the positive prior: between zero and machine epsilon the density is that of
any other positive number, but the value is out of bounds. -/
theorem C94_positive_gap_false (x : ℝ) (h0 : 0 < x) (h1 : x < 2⁻¹ ^ 52) :
    Prior.positive.logPdf (.fin x) = .fin 0 ∧ ¬ InBounds .positive x := by
  refine ⟨by simp [Prior.logPdf, h0], fun h => ?_⟩
  have := (C94_bounds x).2.2.1.1 h
  linarith

example : (0 : ℝ) < 2⁻¹ ^ 53 ∧ (2⁻¹ : ℝ) ^ 53 < 2⁻¹ ^ 52 := by norm_num

/-- C94 fails the other way round for the positive Gaussian prior, whose upper bound leaves out the mean: with a
mean above ten standard deviations the most likely value is itself out of bounds.  Negative values are out of
bounds too, but `log_pdf` gives them a finite density. -/
theorem C94_positive_gaussian_false (mu sigma : ℝ) (hs : 0 < sigma) :
    (10 * sigma < mu → ¬ InBounds (.positiveGaussian (.fin mu) (.fin sigma)) mu ∧
      ∀ x, ∃ rx rmu : ℝ, (Prior.positiveGaussian (.fin mu) (.fin sigma)).logPdf (.fin x) = .fin rx ∧
        (Prior.positiveGaussian (.fin mu) (.fin sigma)).logPdf (.fin mu) = .fin rmu ∧ rx ≤ rmu) ∧
    ∀ x < 0, ¬ InBounds (.positiveGaussian (.fin mu) (.fin sigma)) x ∧
      HasDensity (.positiveGaussian (.fin mu) (.fin sigma)) x := by
  refine ⟨fun hmu => ⟨fun h => ?_, fun x => ?_⟩, fun x hx => ⟨fun h => ?_, ⟨_, positiveGaussian_logPdf mu sigma x hs⟩⟩⟩
  · have := ((C94_bounds mu).2.2.2.2.2.2 mu sigma).1 h
    linarith [this.2]
  · refine ⟨_, _, positiveGaussian_logPdf mu sigma x hs, positiveGaussian_logPdf mu sigma mu hs, ?_⟩
    have : 0 ≤ ((x - mu) / sigma) ^ 2 := sq_nonneg _
    rw [sub_self, zero_div]
    nlinarith
  · have := ((C94_bounds x).2.2.2.2.2.2 mu sigma).1 h
    linarith [this.1]

example : (0 : ℝ) < 1 ∧ (10 : ℝ) * 1 < 11 := by norm_num

/-- C94: whatever finite value is forced into the bounds of a proper prior other than the log normal one gets a
finite log density. -/
theorem C94_clamped_has_density (q : Parameter) (hp : q.prior.Proper) (hn : ¬ q.prior.IsLogNormal) (v : ℝ) :
    ∃ w : ℝ, ensureWithinBounds q (.fin v) = .fin w ∧ HasDensity q.prior w := by
  have key : ∀ w : ℝ, InBounds q.prior w → ensureWithinBounds q (.fin v) = .fin w →
      ∃ w : ℝ, ensureWithinBounds q (.fin v) = .fin w ∧ HasDensity q.prior w := fun w h1 h2 =>
    ⟨w, h2, C94_in_bounds_has_density_partial q.prior hp hn w h1⟩
  have hclamp : ∀ l u : ℝ, q.prior.lower = .fin l → q.prior.upper = .fin u → l ≤ u →
      ∃ w : ℝ, ensureWithinBounds q (.fin v) = .fin w ∧ HasDensity q.prior w := by
    intro l u hl hu hlu
    by_cases h1 : v < l
    · exact key l (by simp [InBounds, hl, hu, hlu]) (by simp [ensureWithinBounds, hl, h1])
    · by_cases h2 : u < v
      · exact key u (by simp [InBounds, hl, hu, hlu]) (by simp [ensureWithinBounds, hl, hu, h1, h2])
      · refine key v ?_ (by simp [ensureWithinBounds, hl, hu, h1, h2])
        simp only [InBounds, hl, hu, Dbl.fin_le]
        exact ⟨not_lt.1 h1, not_lt.1 h2⟩
  have hclampTop : ∀ l : ℝ, q.prior.lower = .fin l → q.prior.upper = .pinf →
      ∃ w : ℝ, ensureWithinBounds q (.fin v) = .fin w ∧ HasDensity q.prior w := by
    intro l hl hu
    by_cases h1 : v < l
    · exact key l (by simp [InBounds, hl, hu]) (by simp [ensureWithinBounds, hl, h1])
    · refine key v ?_ (by simp [ensureWithinBounds, hl, hu, h1])
      simp only [InBounds, hl, hu, Dbl.fin_le, Dbl.fin_le_pinf, and_true]
      exact not_lt.1 h1
  have hfree : q.prior.lower = .ninf → q.prior.upper = .pinf →
      ∃ w : ℝ, ensureWithinBounds q (.fin v) = .fin w ∧ HasDensity q.prior w := fun hl hu =>
    key v (by simp [InBounds, hl, hu]) (by simp [ensureWithinBounds, hl, hu])
  cases hq : q.prior with
  | uninformative => rw [← hq]; exact hfree (by rw [hq]; rfl) (by rw [hq]; rfl)
  | fixed => rw [← hq]; exact hfree (by rw [hq]; rfl) (by rw [hq]; rfl)
  | positive => rw [← hq]; exact hclampTop _ (by rw [hq]; rfl) (by rw [hq]; rfl)
  | nonNegative => rw [← hq]; exact hclampTop _ (by rw [hq]; rfl) (by rw [hq]; rfl)
  | uniform l u =>
    rw [hq] at hp
    obtain ⟨l, u, rfl, rfl, hlu⟩ := hp
    rw [← hq]
    exact hclamp l u (by rw [hq]; rfl) (by rw [hq]; rfl) hlu.le
  | logScaleUniform l u =>
    rw [hq] at hp
    obtain ⟨l, u, rfl, rfl, -, hlu⟩ := hp
    rw [← hq]
    exact hclamp l u (by rw [hq]; rfl) (by rw [hq]; rfl) hlu.le
  | gaussian m s => rw [← hq]; exact hfree (by rw [hq]; rfl) (by rw [hq]; rfl)
  | positiveGaussian m s =>
    rw [hq] at hp
    obtain ⟨m, s, rfl, rfl, hs⟩ := hp
    rw [← hq]
    exact hclamp 0 (10 * s) (by rw [hq]; rfl) (by rw [hq]; rfl) (by positivity)
  | logNormal m s => rw [hq] at hn; exact absurd trivial hn

example : (Parameter.mk (.fin 3) .positive).prior.Proper ∧ ¬ (Parameter.mk (.fin 3) .positive).prior.IsLogNormal :=
  ⟨trivial, id⟩

end Albatross

import Verif.Distribution
import Verif.NormalSpec
import Verif.LinAlgProps

/-! # C43: distribution arithmetic is arithmetic of normally distributed random vectors -/

namespace Albatross

open Matrix MeasureTheory ProbabilityTheory

variable {Ω : Type} [MeasurableSpace Ω]

/-! ## Specification

A `JointDistribution` stands for a normal law with its mean and covariance; a `MarginalDistribution`
for one with independent coordinates, that is a diagonal covariance. -/

/-- `X` is distributed as the joint distribution `d` says. -/
def Joint.Describes {n : Type} [Fintype n] [DecidableEq n] (d : Joint n) (P : Measure Ω)
    (X : Ω → n → ℝ) : Prop := IsNormal P X d.mean d.covariance

/-- `X` is distributed as the marginal distribution `d` says. -/
def Marginal.Describes {n : Type} [Fintype n] [DecidableEq n] (d : Marginal n) (P : Measure Ω)
    (X : Ω → n → ℝ) : Prop := IsNormal P X d.mean (diagonal d.variance)

section
variable {n m p : Type} [Fintype n] [DecidableEq n] [Fintype m] [DecidableEq m] [Fintype p] [DecidableEq p]
variable {P : Measure Ω} [IsProbabilityMeasure P]

theorem IsNormal.smul {X : Ω → n → ℝ} {μ : n → ℝ} {S : Matrix n n ℝ} (h : IsNormal P X μ S) (c : ℝ) :
    IsNormal P (fun ω => c • X ω) (c • μ) ((c * c) • S) := by
  have := h.affine (c • (1 : Matrix n n ℝ)) 0
  simpa [smul_mulVec, smul_smul, transpose_smul] using this

theorem IsNormal.sub {X Y : Ω → n → ℝ} {μ ν : n → ℝ} {S T : Matrix n n ℝ} (hX : IsNormal P X μ S)
    (hY : IsNormal P Y ν T) (hXY : IndepFun X Y P) :
    IsNormal P (fun ω => X ω - Y ω) (μ - ν) (S + T) := by
  have hm : Measurable fun y : n → ℝ => (-1 : ℝ) • y := by fun_prop
  have := hX.add (hY.smul (-1)) (hXY.comp measurable_id hm)
  simpa [sub_eq_add_neg] using this

/-! ## Sums and differences of independent variables -/

/-- Adding distributions is adding independent random vectors. -/
theorem C43_sum {X Y : Ω → n → ℝ} (hXY : IndepFun X Y P) :
    (∀ x y : Marginal n, x.Describes P X → y.Describes P Y →
      (x.add y).Describes P fun ω => X ω + Y ω) ∧
    (∀ x y : Joint n, x.Describes P X → y.Describes P Y →
      (x.add y).Describes P fun ω => X ω + Y ω) ∧
    (∀ (x : Joint n) (y : Marginal n), x.Describes P X → y.Describes P Y →
      (x.addMarginal y).Describes P fun ω => X ω + Y ω) := by
  refine ⟨fun x y hx hy => ?_, fun x y hx hy => ?_, fun x y hx hy => ?_⟩
  · have := IsNormal.add hx hy hXY
    rwa [diagonal_add] at this
  · exact IsNormal.add hx hy hXY
  · exact IsNormal.add hx hy hXY

/-- Subtracting distributions is subtracting independent random vectors: the covariances add. -/
theorem C43_difference {X Y : Ω → n → ℝ} (hXY : IndepFun X Y P) :
    (∀ x y : Marginal n, x.Describes P X → y.Describes P Y →
      (x.sub y).Describes P fun ω => X ω - Y ω) ∧
    (∀ x y : Joint n, x.Describes P X → y.Describes P Y →
      (x.sub y).Describes P fun ω => X ω - Y ω) ∧
    (∀ (x : Joint n) (y : Marginal n), x.Describes P X → y.Describes P Y →
      (x.subMarginal y).Describes P fun ω => X ω - Y ω) := by
  refine ⟨fun x y hx hy => ?_, fun x y hx hy => ?_, fun x y hx hy => ?_⟩
  · have := IsNormal.sub hx hy hXY
    rwa [diagonal_add] at this
  · exact IsNormal.sub hx hy hXY
  · exact IsNormal.sub hx hy hXY

/-- Scaling. -/
theorem C43_scaling {X : Ω → n → ℝ} (c : ℝ) :
    (∀ x : Marginal n, x.Describes P X → (x.scale c).Describes P fun ω => c • X ω) ∧
    (∀ x : Joint n, x.Describes P X → (x.scale c).Describes P fun ω => c • X ω) := by
  refine ⟨fun x hx => ?_, fun x hx => IsNormal.smul hx c⟩
  have := IsNormal.smul hx c
  rwa [← diagonal_smul] at this

/-- A mean without variances is the constant. -/
theorem C43_mean_only (mean : n → ℝ) : (Marginal.ofMean mean).Describes P fun _ => mean := by
  refine isNormal_iff.2 ⟨?_, aemeasurable_const, fun t => ?_⟩
  · simpa [Marginal.ofMean] using (PosSemidef.zero : (0 : Matrix n n ℝ).PosSemidef)
  · simp [Marginal.ofMean]

/-! ## Marginals -/

/-- Each entry of `marginal()` is the law of the coordinate. -/
theorem C43_marginal {X : Ω → n → ℝ} {d : Joint n} (h : d.Describes P X) (i : n) :
    (⟨fun _ => d.marginal.mean i, fun _ => d.marginal.variance i⟩ : Marginal (Fin 1)).Describes P
      fun ω _ => X ω i := by
  have := IsNormal.affine h (of fun (_ : Fin 1) j => if j = i then (1 : ℝ) else 0) 0
  unfold Marginal.Describes
  convert this using 1
  · funext ω _; simp [mulVec, dotProduct]
  · funext _; simp [mulVec, dotProduct, Joint.marginal]
  · ext a b
    rw [Subsingleton.elim a 0, Subsingleton.elim b 0]
    simp [mul_apply, Joint.marginal]

omit [Fintype n] in
/-- Taking marginals commutes with every operation. -/
theorem C43_marginal_commutes (x y : Joint n) (z : Marginal n) (c : ℝ) :
    (x.add y).marginal = x.marginal.add y.marginal ∧
    (x.sub y).marginal = x.marginal.sub y.marginal ∧
    (x.addMarginal z).marginal = x.marginal.add z ∧
    (x.subMarginal z).marginal = x.marginal.sub z ∧
    (x.scale c).marginal = x.marginal.scale c := by
  refine ⟨rfl, rfl, ?_, ?_, rfl⟩ <;>
    simp [Joint.addMarginal, Joint.subMarginal, Joint.marginal, Marginal.add, Marginal.sub]

/-! ## Premultiplication by a matrix -/

omit [DecidableEq n] [Fintype p] [DecidableEq p] in
theorem productSqrt_mul {ldlt : Matrix n n ℝ → Ldlt n} {S : Matrix n n ℝ}
    (h : (ldlt S).Factors S) (hS : S.PosSemidef) (M : Matrix p n ℝ) :
    productSqrt ldlt M S * (productSqrt ldlt M S)ᵀ = M * S * Mᵀ := by
  unfold productSqrt
  rw [Ldlt.sqrtTranspose_eq, transpose_transpose, transpose_mul, ← Matrix.mul_assoc,
    Matrix.mul_assoc M, h.root_mul hS]

omit [Fintype p] [DecidableEq p] in
theorem productSqrtDiag_mul {v : n → ℝ} (hv : ∀ i, 0 ≤ v i) (M : Matrix p n ℝ) :
    productSqrtDiag M v * (productSqrtDiag M v)ᵀ = M * diagonal v * Mᵀ := by
  unfold productSqrtDiag
  rw [transpose_mul, diagonal_transpose, ← Matrix.mul_assoc, Matrix.mul_assoc M, diagonal_mul_diagonal]
  simp only [Real.mul_self_sqrt (hv _)]

/-- `matrix * joint` is the law of `M X`; its covariance is `M Σ Mᵀ`. -/
theorem C43_transformed_joint {ldlt : Matrix n n ℝ → Ldlt n} {d : Joint n}
    (hF : (ldlt d.covariance).Factors d.covariance) (hd : d.covariance.PosSemidef) (M : Matrix p n ℝ) :
    d.transformJoint ldlt M = ⟨M *ᵥ d.mean, M * d.covariance * Mᵀ⟩ ∧
    d.transformMarginal ldlt M = (d.transformJoint ldlt M).marginal ∧
    ∀ X : Ω → n → ℝ, d.Describes P X → (d.transformJoint ldlt M).Describes P fun ω => M *ᵥ X ω := by
  have e : d.transformJoint ldlt M = ⟨M *ᵥ d.mean, M * d.covariance * Mᵀ⟩ := by
    unfold Joint.transformJoint
    simp only [productSqrt_mul hF hd]
  refine ⟨e, ?_, fun X hX => ?_⟩
  · simp only [Joint.transformMarginal, Joint.transformJoint, Joint.marginal, Marginal.mk.injEq, true_and]
    funext i
    simp only [diag_apply, mul_apply, transpose_apply, pow_two]
  · rw [e]
    have := IsNormal.affine hX M 0
    simp only [add_zero] at this
    exact this

/-- `matrix * marginal` is the law of `M X`; its covariance is `M diag(v) Mᵀ`. -/
theorem C43_transformed_marginal {d : Marginal n} (hd : ∀ i, 0 ≤ d.variance i) (M : Matrix p n ℝ) :
    d.transformJoint M = ⟨M *ᵥ d.mean, M * diagonal d.variance * Mᵀ⟩ ∧
    d.transformMarginal M = (d.transformJoint M).marginal ∧
    ∀ X : Ω → n → ℝ, d.Describes P X → (d.transformJoint M).Describes P fun ω => M *ᵥ X ω := by
  have e : d.transformJoint M = ⟨M *ᵥ d.mean, M * diagonal d.variance * Mᵀ⟩ := by
    unfold Marginal.transformJoint
    simp only [productSqrtDiag_mul hd]
  refine ⟨e, ?_, fun X hX => ?_⟩
  · simp only [Marginal.transformMarginal, Marginal.transformJoint, Joint.marginal, Marginal.mk.injEq, true_and]
    funext i
    simp only [diag_apply, mul_apply, transpose_apply, pow_two]
  · rw [e]
    have := IsNormal.affine hX M 0
    simp only [add_zero] at this
    exact this

/-! ## Concatenation -/

/-- Concatenating marginals stacks independent vectors. -/
theorem C43_concatenate {X : Ω → n → ℝ} {Y : Ω → m → ℝ} {x : Marginal n} {y : Marginal m}
    (hx : x.Describes P X) (hy : y.Describes P Y) (hXY : IndepFun X Y P) :
    (stackMarginals x y).Describes P fun ω => Sum.elim (X ω) (Y ω) := by
  have h1 := IsNormal.affine hx (fromRows (1 : Matrix n n ℝ) (0 : Matrix m n ℝ)) 0
  have h2 := IsNormal.affine hy (fromRows (0 : Matrix n m ℝ) (1 : Matrix m m ℝ)) 0
  have hm1 : Measurable fun v : n → ℝ => fromRows (1 : Matrix n n ℝ) (0 : Matrix m n ℝ) *ᵥ v + 0 :=
    ((Continuous.matrix_mulVec continuous_const continuous_id).add continuous_const).measurable
  have hm2 : Measurable fun v : m → ℝ => fromRows (0 : Matrix n m ℝ) (1 : Matrix m m ℝ) *ᵥ v + 0 :=
    ((Continuous.matrix_mulVec continuous_const continuous_id).add continuous_const).measurable
  have h := h1.add h2 (hXY.comp hm1 hm2)
  have e1 : ∀ (u : n → ℝ) (v : m → ℝ), fromRows (1 : Matrix n n ℝ) (0 : Matrix m n ℝ) *ᵥ u + 0 +
      (fromRows (0 : Matrix n m ℝ) (1 : Matrix m m ℝ) *ᵥ v + 0) = Sum.elim u v := by
    intro u v
    funext i
    cases i <;> simp [fromRows_mulVec]
  have e2 : fromRows (1 : Matrix n n ℝ) (0 : Matrix m n ℝ) * diagonal x.variance * (fromRows (1 : Matrix n n ℝ) (0 : Matrix m n ℝ))ᵀ +
      fromRows (0 : Matrix n m ℝ) (1 : Matrix m m ℝ) * diagonal y.variance * (fromRows (0 : Matrix n m ℝ) (1 : Matrix m m ℝ))ᵀ =
      diagonal (Sum.elim x.variance y.variance) := by
    ext i j
    cases i <;> cases j <;> simp [mul_apply, diagonal_apply, one_apply]
  simp only [e1] at h
  rw [e2] at h
  exact h

end

/-! ## Subsets -/

theorem selectIndices_ok {b : Build} {k : Nat} {idx : List Nat} {s : Fin idx.length → Fin k} :
    selectIndices b k idx = .ok s ↔ ∀ i, (s i).1 = idx[i] := by
  induction idx with
  | nil =>
    simp only [selectIndices, List.length_nil, Except.ok.injEq]
    exact ⟨fun _ i => i.elim0, fun _ => funext fun i => i.elim0⟩
  | cons a t ih =>
    unfold selectIndices
    by_cases h : a < k
    · simp only [h, decide_true, albatrossAssert_true, dite_true]
      show ((selectIndices b k t).bind fun rest =>
        .ok (Fin.cons (α := fun _ => Fin k) ⟨a, h⟩ rest)) = _ ↔ _
      constructor
      · intro e
        cases hr : selectIndices b k t with
        | error f => rw [hr] at e; cases e
        | ok r =>
          rw [hr] at e
          cases e
          intro i
          refine Fin.cases ?_ (fun j => ?_) i
          · rfl
          · simpa using ih.1 hr j
      · intro e
        have hr := ih (s := fun j => s j.succ) |>.2 fun j => by simpa using e j.succ
        rw [hr]
        show Except.ok _ = _
        congr 1
        funext i
        refine Fin.cases ?_ (fun j => ?_) i
        · exact Fin.ext (e 0).symm
        · rfl
    · simp only [h, decide_false, dite_false]
      constructor
      · intro e
        cases b <;> cases e
      · intro e
        have h0 : (s 0).1 = a := e 0
        exact absurd (h0 ▸ (s 0).2) h

theorem selectIndices_in_range (b : Build) {k : Nat} {idx : List Nat} (h : ∀ i ∈ idx, i < k) :
    selectIndices b k idx = .ok fun i => ⟨idx[i], h _ (List.getElem_mem _)⟩ :=
  selectIndices_ok.2 fun _ => rfl

theorem selectIndices_out_of_range (b : Build) {k : Nat} {idx : List Nat} (h : ∃ i ∈ idx, k ≤ i) :
    selectIndices b k idx = .error (match b with | .debug => .assertFail | .ndebug => .ub) := by
  induction idx with
  | nil => simp at h
  | cons a t ih =>
    unfold selectIndices
    by_cases ha : a < k
    · have : ∃ i ∈ t, k ≤ i := by
        obtain ⟨i, hi, hk⟩ := h
        rcases List.mem_cons.1 hi with rfl | hi
        · omega
        · exact ⟨i, hi, hk⟩
      simp only [ha, decide_true, albatrossAssert_true, dite_true, ih this]
      rfl
    · simp only [ha, decide_false, dite_false]
      cases b <;> rfl

section
variable {k : Nat}

/-- What a subset is: entry `i` is the entry at `indices[i]`. -/
def IsSubsetOf (idx : List Nat) (f : Fin k → ℝ) (g : Fin idx.length → ℝ) : Prop :=
  ∀ (i : Fin idx.length) (h : idx[i] < k), g i = f ⟨idx[i], h⟩

/-- Subsets of distributions are defined exactly for indices in range (repetitions allowed) and are
then the law of the chosen coordinates; outside they fail like the accesses they make. -/
theorem C43_subset (b : Build) (idx : List Nat) (d : Joint (Fin k)) (e : Marginal (Fin k)) :
    ((∀ i ∈ idx, i < k) →
      (∃ d', d.subset b idx = .ok d' ∧ IsSubsetOf idx d.mean d'.mean ∧
        (∀ (i j : Fin idx.length) (hi : idx[i] < k) (hj : idx[j] < k),
          d'.covariance i j = d.covariance ⟨idx[i], hi⟩ ⟨idx[j], hj⟩) ∧
        ∀ (P : Measure Ω) [IsProbabilityMeasure P] (X : Ω → Fin k → ℝ), d.Describes P X →
          ∀ s : Fin idx.length → Fin k, (∀ i, (s i).1 = idx[i]) →
            d'.Describes P fun ω i => X ω (s i)) ∧
      (∃ e', e.subset b idx = .ok e' ∧ IsSubsetOf idx e.mean e'.mean ∧
        IsSubsetOf idx e.variance e'.variance)) ∧
    ((∃ i ∈ idx, k ≤ i) →
      d.subset b idx = .error (match b with | .debug => .assertFail | .ndebug => .ub) ∧
      e.subset b idx = .error (match b with | .debug => .assertFail | .ndebug => .ub)) := by
  refine ⟨fun h => ⟨⟨_, by unfold Joint.subset; rw [selectIndices_in_range b h]; rfl, ?_, ?_, ?_⟩, ⟨_, by unfold Marginal.subset; rw [selectIndices_in_range b h]; rfl, ?_, ?_⟩⟩, fun h => ?_⟩
  · intro i _; rfl
  · intro i j _ _; rfl
  · intro P _ X hX s hs
    have hs' : s = fun i => ⟨idx[i], h _ (List.getElem_mem _)⟩ := funext fun i => Fin.ext (hs i)
    subst hs'
    have := IsNormal.affine hX (of fun (i : Fin idx.length) (j : Fin k) =>
      if j = ⟨idx[i], h _ (List.getElem_mem _)⟩ then (1 : ℝ) else 0) 0
    unfold Joint.Describes
    convert this using 1
    · funext ω i; simp [mulVec, dotProduct]
    · funext i; simp [mulVec, dotProduct]
    · ext i j
      simp [mul_apply]
  · intro i _; rfl
  · intro i _; rfl
  · unfold Joint.subset Marginal.subset
    rw [selectIndices_out_of_range b h]
    exact ⟨rfl, rfl⟩

/-- `subset` commutes with `marginal`, also in how it fails. -/
theorem C43_subset_marginal (b : Build) (idx : List Nat) (d : Joint (Fin k)) :
    (d.subset b idx).map Joint.marginal = d.marginal.subset b idx := by
  unfold Joint.subset Marginal.subset
  cases selectIndices b k idx <;> rfl

/-- `d[i]` is the law of the single coordinate. -/
theorem C43_element (b : Build) (d : Joint (Fin k)) (i : Nat) :
    d.get b i = d.marginal.get b i ∧
    (∀ h : i < k, ∃ e, d.get b i = .ok e ∧ ∀ (P : Measure Ω) [IsProbabilityMeasure P]
      (X : Ω → Fin k → ℝ), d.Describes P X → e.Describes P fun ω _ => X ω ⟨i, h⟩) ∧
    (k ≤ i → d.get b i = .error (match b with | .debug => .assertFail | .ndebug => .ub)) := by
  refine ⟨rfl, fun h => ⟨_, by unfold Joint.get; rw [dif_pos h], fun P _ X hX => ?_⟩, fun h => ?_⟩
  · exact C43_marginal hX ⟨i, h⟩
  · unfold Joint.get
    rw [dif_neg (by omega)]
    cases b <;> rfl

theorem setSelected_ok (b : Build) : ∀ (idx : List Nat) (dst : Fin k → ℝ) (src : Fin idx.length → ℝ),
    (∀ i ∈ idx, i < k) → ∃ out, setSelected b dst idx src = .ok out ∧
      (∀ j : Fin k, j.1 ∉ idx → out j = dst j) ∧
      (idx.Nodup → IsSubsetOf idx out src)
  | [], dst, _, _ => ⟨dst, rfl, fun _ _ => rfl, fun _ i => i.elim0⟩
  | a :: t, dst, src, h => by
    have ha : a < k := h a (by simp)
    obtain ⟨out, ho, h1, h2⟩ := setSelected_ok b t (Function.update dst ⟨a, ha⟩ (src 0))
      (fun j => src j.succ) (fun i hi => h i (by simp [hi]))
    refine ⟨out, ?_, ?_, ?_⟩
    · unfold setSelected
      simp only [ha, decide_true, albatrossAssert_true, dite_true]
      exact ho
    · intro j hj
      simp only [List.mem_cons, not_or] at hj
      rw [h1 j hj.2, Function.update_of_ne]
      intro e; exact hj.1 (by rw [e])
    · intro hn i hi
      rw [List.nodup_cons] at hn
      revert hi
      refine Fin.cases ?_ (fun j => ?_) i
      · intro hi
        have e : out ⟨a, ha⟩ = src 0 := by
          rw [h1 ⟨a, ha⟩ hn.1, Function.update_self]
        exact e.symm
      · intro hi
        exact h2 hn.2 j hi

/-- `set_subset` writes the given values at the given (distinct) places and nothing else, and reading
them back with `subset` gives what was written. -/
theorem C43_set_subset (b : Build) (idx : List Nat) (d : Marginal (Fin k))
    (src : Marginal (Fin idx.length)) (h : ∀ i ∈ idx, i < k) :
    ∃ d', d.setSubset b idx src = .ok d' ∧
      (∀ j : Fin k, j.1 ∉ idx → d'.mean j = d.mean j ∧ d'.variance j = d.variance j) ∧
      (idx.Nodup → d'.subset b idx = .ok src) := by
  obtain ⟨mean, hm, hm1, hm2⟩ := setSelected_ok b idx d.mean src.mean h
  obtain ⟨var, hv, hv1, hv2⟩ := setSelected_ok b idx d.variance src.variance h
  refine ⟨⟨mean, var⟩, ?_, fun j hj => ⟨hm1 j hj, hv1 j hj⟩, fun hn => ?_⟩
  · unfold Marginal.setSubset
    rw [hm, hv]; rfl
  · unfold Marginal.subset
    rw [selectIndices_in_range b h]
    show Except.ok _ = _
    congr 1
    obtain ⟨sm, sv⟩ := src
    congr 1
    · funext i; exact (hm2 hn i _).symm
    · funext i; exact (hv2 hn i _).symm

end

/-! ## Concatenating many marginals -/

theorem concatenateLoop_ok : ∀ (ds : List MarginalVec) (pm pv rm rv : List ℝ),
    (∀ d ∈ ds, d.variance.length = d.mean.length) → pm.length = pv.length →
    rm.length = (ds.map fun d => d.mean.length).sum → rv.length = rm.length →
    concatenateLoop ds pm.length (pm ++ rm) (pv ++ rv) =
      .ok (pm ++ (ds.map MarginalVec.mean).flatten, pv ++ (ds.map MarginalVec.variance).flatten)
  | [], pm, pv, rm, rv, _, _, hr, hr' => by
    have h1 : rm = [] := List.eq_nil_of_length_eq_zero (by simpa using hr)
    have h2 : rv = [] := List.eq_nil_of_length_eq_zero (by rw [hr', h1]; rfl)
    subst h1; subst h2; rfl
  | d :: ds, pm, pv, rm, rv, hd, hp, hr, hr' => by
    have hdv := hd d (by simp)
    simp only [List.map_cons, List.sum_cons] at hr
    have w1 : writeRows (pm ++ rm) pm.length d.mean =
        .ok ((pm ++ d.mean) ++ rm.drop d.mean.length) := by
      unfold writeRows
      rw [if_pos (by simp; omega)]
      simp [List.drop_append]
    have w2 : writeRows (pv ++ rv) pm.length d.variance =
        .ok ((pv ++ d.variance) ++ rv.drop d.mean.length) := by
      unfold writeRows
      rw [if_pos (by simp; omega), hp, hdv]
      simp [List.drop_append]
    unfold concatenateLoop
    rw [w1]
    simp only [hdv, if_true]
    rw [w2]
    have ih := concatenateLoop_ok ds (pm ++ d.mean) (pv ++ d.variance) (rm.drop d.mean.length)
      (rv.drop d.mean.length) (fun x hx => hd x (by simp [hx])) (by simp [hp, hdv])
      (by simp; omega) (by simp [hr'])
    rw [List.length_append] at ih
    show concatenateLoop ds (pm.length + d.mean.length) _ _ = _
    rw [ih]
    simp

/-- `concatenate_marginals` of a list appends means and variances in order. -/
theorem C43_concatenate_list (uninit : Nat → ℝ) (ds : List MarginalVec)
    (hd : ∀ d ∈ ds, d.variance.length = d.mean.length) :
    concatenateMarginalsVec uninit ds =
      .ok ⟨(ds.map MarginalVec.mean).flatten, (ds.map MarginalVec.variance).flatten⟩ := by
  unfold concatenateMarginalsVec
  by_cases h0 : ds.length = 0
  · have : ds = [] := List.eq_nil_of_length_eq_zero h0
    subst this
    rfl
  · have hs : ∀ (l : List MarginalVec) (s : Nat), l.foldl (fun s d => s + d.mean.length) s =
        s + (l.map fun d => d.mean.length).sum := by
      intro l
      induction l with
      | nil => intro s; simp
      | cons a t ih => intro s; simp [ih]; omega
    have := concatenateLoop_ok ds [] [] ((List.range (ds.foldl (fun s d => s + d.mean.length) 0)).map uninit)
      ((List.range (ds.foldl (fun s d => s + d.mean.length) 0)).map uninit) hd rfl
      (by simp [hs]) rfl
    simp only [h0, if_false, List.nil_append, List.length_nil] at this ⊢
    rw [this]
    rfl

/-! ## Non-vacuity -/

/-- Two independent random vectors with any given joint laws exist. -/
theorem exists_independent {n m : Type} [Fintype n] [DecidableEq n] [Fintype m] [DecidableEq m]
    (x : Joint n) (y : Joint m) (hx : x.covariance.PosSemidef) (hy : y.covariance.PosSemidef) :
    ∃ (Q : Measure (EuclideanSpace ℝ n × EuclideanSpace ℝ m)) (_ : IsProbabilityMeasure Q),
      x.Describes Q (fun ω => WithLp.ofLp ω.1) ∧ y.Describes Q (fun ω => WithLp.ofLp ω.2) ∧
      IndepFun (fun ω => WithLp.ofLp ω.1) (fun ω => WithLp.ofLp ω.2) Q := by
  refine ⟨(multivariateGaussian (WithLp.toLp 2 x.mean) x.covariance).prod
    (multivariateGaussian (WithLp.toLp 2 y.mean) y.covariance), inferInstance, ?_, ?_, ?_⟩
  · refine ⟨hx, ((PiLp.continuous_ofLp 2 _).measurable.comp measurable_fst).aemeasurable, ?_⟩
    exact measurePreserving_fst.map_eq
  · refine ⟨hy, ((PiLp.continuous_ofLp 2 _).measurable.comp measurable_snd).aemeasurable, ?_⟩
    exact measurePreserving_snd.map_eq
  · exact indepFun_prod (PiLp.continuous_ofLp 2 _).measurable (PiLp.continuous_ofLp 2 _).measurable

example : (Marginal.mk ![1, 2] ![1, 4] : Marginal (Fin 2)).sub ⟨![3, 1], ![2, 2]⟩ =
    ⟨![-2, 1], ![3, 6]⟩ := by
  simp only [Marginal.sub, Marginal.mk.injEq]
  constructor <;> (ext i; fin_cases i <;> norm_num)

example : (Marginal.mk ![1, 2, 3] ![4, 5, 6] : Marginal (Fin 3)).subset .debug [2, 0, 2] =
    .ok ⟨![3, 1, 3], ![6, 4, 6]⟩ := by
  unfold Marginal.subset
  rw [selectIndices_in_range .debug (by decide)]
  show Except.ok _ = _
  congr 2 <;> (funext i; change Fin 3 at i; fin_cases i <;> rfl)

example : ∀ i, 0 ≤ (Marginal.mk ![1, 2] ![1, 4] : Marginal (Fin 2)).variance i := by
  intro i; fin_cases i <;> norm_num

example : ∃ F : Ldlt (Fin 2), F.Factors (1 : Matrix (Fin 2) (Fin 2) ℝ) :=
  Ldlt.exists_factors' Matrix.PosDef.one

example : concatenateMarginalsVec (fun _ => 7) [⟨[1], [2]⟩, ⟨[], []⟩, ⟨[3, 4], [5, 6]⟩] =
    .ok ⟨[1, 3, 4], [2, 5, 6]⟩ :=
  C43_concatenate_list _ _ (by simp)

end Albatross

import Verif.HeldOut
import Verif.GpProps
import Verif.AsyncProps

/-! # C30: closed-form held-out predictions are the conditional distributions -/

namespace Albatross

open Matrix

section algebra
variable {κ ρ ι : Type} [Fintype κ] [DecidableEq κ] [Fintype ρ] [DecidableEq ρ] [Fintype ι] [DecidableEq ι]

/-- Splitting the indices of a positive definite matrix into `g` and the rest `r`, the `g` block of
the inverse is the inverse of the conditional covariance and the `g` part of the information vector
gives the conditional mean. -/
theorem heldOut_conditional {A : Matrix ι ι ℝ} (hA : A.PosDef) (g : κ → ι) (r : ρ → ι)
    (hb : Function.Bijective (Sum.elim g r)) (μ y : ι → ℝ) :
    (A⁻¹.submatrix g g).PosDef ∧
    IsGaussianConditional (fun k => μ (g k)) (fun k => μ (r k)) (A.submatrix g g) (A.submatrix g r)
      (A.submatrix r r) (fun k => y (r k))
      ((fun k => y (g k)) - (A⁻¹.submatrix g g)⁻¹ *ᵥ fun k => (A⁻¹ *ᵥ (y - μ)) (g k))
      (A⁻¹.submatrix g g)⁻¹ := by
  have hgi : Function.Injective g := fun a b h => Sum.inl_injective (hb.1 (by simpa using h))
  have hri : Function.Injective r := fun a b h => Sum.inr_injective (hb.1 (by simpa using h))
  have hAu := (Matrix.isUnit_iff_isUnit_det _).1 hA.isUnit
  have hGpd : (A⁻¹.submatrix g g).PosDef := hA.inv.submatrix hgi
  refine ⟨hGpd, ?_⟩
  have hRpd : (A.submatrix r r).PosDef := hA.submatrix hri
  have hRu := (Matrix.isUnit_iff_isUnit_det _).1 hRpd.isUnit
  have hAs : Aᵀ = A := by
    have := hA.isHermitian.eq; rwa [conjTranspose_eq_transpose_of_trivial] at this
  have hRs : (A.submatrix r r)ᵀ = A.submatrix r r := by rw [transpose_submatrix, hAs]
  have hcross : (A.submatrix g r)ᵀ = A.submatrix r g := by rw [transpose_submatrix, hAs]
  -- splitting sums over `ι`
  have hsum : ∀ f : ι → ℝ, ∑ i, f i = ∑ k, f (g k) + ∑ k, f (r k) := by
    intro f
    rw [← (Equiv.ofBijective _ hb).sum_comp f, Fintype.sum_sum_type]
    rfl
  have hAN : A * A⁻¹ = 1 := Matrix.mul_nonsing_inv _ hAu
  have hgg : A.submatrix g g * A⁻¹.submatrix g g + A.submatrix g r * A⁻¹.submatrix r g = 1 := by
    ext i j
    have := congrFun (congrFun hAN (g i)) (g j)
    rw [Matrix.mul_apply, hsum, Matrix.one_apply] at this
    simp only [Matrix.add_apply, Matrix.mul_apply, submatrix_apply, Matrix.one_apply]
    rw [this]
    simp [hgi.eq_iff]
  have hrg : A.submatrix r g * A⁻¹.submatrix g g + A.submatrix r r * A⁻¹.submatrix r g = 0 := by
    ext i j
    have := congrFun (congrFun hAN (r i)) (g j)
    rw [Matrix.mul_apply, hsum, Matrix.one_apply] at this
    simp only [Matrix.add_apply, Matrix.mul_apply, submatrix_apply, Matrix.zero_apply]
    rw [this, if_neg]
    intro h
    have := hb.1 (a₁ := Sum.inr i) (a₂ := Sum.inl j) (by simpa using h)
    simp at this
  have hc : A⁻¹.submatrix r g = -((A.submatrix r r)⁻¹ * (A.submatrix r g * A⁻¹.submatrix g g)) := by
    have h1 : A.submatrix r r * A⁻¹.submatrix r g = -(A.submatrix r g * A⁻¹.submatrix g g) :=
      eq_neg_of_add_eq_zero_right hrg
    rw [← Matrix.mul_neg, ← h1, Matrix.nonsing_inv_mul_cancel_left _ _ hRu]
  have hSa : (A.submatrix g g - A.submatrix g r * (A.submatrix r r)⁻¹ * (A.submatrix g r)ᵀ) *
      A⁻¹.submatrix g g = 1 := by
    rw [hcross, Matrix.sub_mul, ← hgg, hc]
    simp only [Matrix.mul_neg, Matrix.mul_assoc]
    abel
  have hinv : (A⁻¹.submatrix g g)⁻¹ =
      A.submatrix g g - A.submatrix g r * (A.submatrix r r)⁻¹ * (A.submatrix g r)ᵀ :=
    Matrix.inv_eq_left_inv hSa
  rw [isGaussianConditional_iff hRs hRu]
  refine ⟨?_, hinv⟩
  -- the information vector
  set x := A⁻¹ *ᵥ (y - μ) with hx
  have hAx : A *ᵥ x = y - μ := by rw [hx, mulVec_mulVec, hAN, one_mulVec]
  have hxg : A.submatrix g g *ᵥ (fun k => x (g k)) + A.submatrix g r *ᵥ (fun k => x (r k)) =
      fun k => y (g k) - μ (g k) := by
    funext k
    have := congrFun hAx (g k)
    simp only [mulVec, dotProduct] at this
    rw [hsum] at this
    simpa [mulVec, dotProduct] using this
  have hxr : A.submatrix r g *ᵥ (fun k => x (g k)) + A.submatrix r r *ᵥ (fun k => x (r k)) =
      fun k => y (r k) - μ (r k) := by
    funext k
    have := congrFun hAx (r k)
    simp only [mulVec, dotProduct] at this
    rw [hsum] at this
    simpa [mulVec, dotProduct] using this
  have hxr' : (fun k => x (r k)) = (A.submatrix r r)⁻¹ *ᵥ ((fun k => y (r k) - μ (r k)) -
      A.submatrix r g *ᵥ (fun k => x (g k))) := by
    rw [← hxr, add_sub_cancel_left, mulVec_mulVec, Matrix.nonsing_inv_mul _ hRu, one_mulVec]
  rw [hinv, sub_mulVec, hcross]
  have e1 : (A.submatrix g r * (A.submatrix r r)⁻¹ * A.submatrix r g) *ᵥ (fun k => x (g k)) =
      A.submatrix g r *ᵥ ((A.submatrix r r)⁻¹ *ᵥ (A.submatrix r g *ᵥ (fun k => x (g k)))) := by
    rw [mulVec_mulVec, mulVec_mulVec, Matrix.mul_assoc]
  have e2 : A.submatrix g r *ᵥ (fun k => x (r k)) =
      (A.submatrix g r * (A.submatrix r r)⁻¹) *ᵥ (fun k => y (r k) - μ (r k)) -
      A.submatrix g r *ᵥ ((A.submatrix r r)⁻¹ *ᵥ (A.submatrix r g *ᵥ (fun k => x (g k)))) := by
    rw [hxr', mulVec_sub, mulVec_sub, mulVec_mulVec]
  have e3 : A.submatrix g g *ᵥ (fun k => x (g k)) = (fun k => y (g k) - μ (g k)) -
      A.submatrix g r *ᵥ (fun k => x (r k)) := by rw [← hxg, add_sub_cancel_right]
  rw [e1, e3, e2]
  funext k
  have : ((fun k => y (r k)) - fun k => μ (r k)) = fun k => y (r k) - μ (r k) := rfl
  rw [this]
  simp only [Pi.sub_apply, Pi.add_apply]
  ring

end algebra

/-! ## Groups given by lists of indices -/

/-- The indices outside a group. -/
abbrev Others {m : Nat} (idx : List (Fin m)) := { i : Fin m // i ∉ idx }

theorem group_others_bijective {m : Nat} {idx : List (Fin m)} (h : idx.Nodup) :
    Function.Bijective (Sum.elim idx.get (Subtype.val : Others idx → Fin m)) := by
  constructor
  · rintro (i | i) (j | j) hij
    · exact congrArg Sum.inl (h.injective_get hij)
    · have hij : idx.get i = (j : Fin m) := hij
      exact absurd (hij ▸ List.get_mem idx i) j.2
    · have hij : (i : Fin m) = idx.get j := hij
      exact absurd (hij ▸ List.get_mem idx j) i.2
    · exact congrArg Sum.inr (Subtype.ext hij)
  · intro i
    by_cases hi : i ∈ idx
    · obtain ⟨k, hk⟩ := List.get_of_mem hi
      exact ⟨Sum.inl k, hk⟩
    · exact ⟨Sum.inr ⟨i, hi⟩, rfl⟩

/-- Specification of leaving a group out: `(mean, cov)` is the conditional law of the observations at
`idx` given those at all other indices, when all observations are Gaussian with mean `μ` and
covariance `A`. -/
def IsHeldOut {m : Nat} (μ : Fin m → ℝ) (A : Matrix (Fin m) (Fin m) ℝ) (y : Fin m → ℝ) (idx : List (Fin m))
    (mean : Fin idx.length → ℝ) (cov : Matrix (Fin idx.length) (Fin idx.length) ℝ) : Prop :=
  IsGaussianConditional (fun k => μ (idx.get k)) (fun k : Others idx => μ k)
    (of fun k l => A (idx.get k) (idx.get l)) (of fun k l => A (idx.get k) l)
    (of fun k l : Others idx => A k l) (fun k => y k) mean cov

theorem heldOut_spec {m : Nat} {A : Matrix (Fin m) (Fin m) ℝ} (hA : A.PosDef) {idx : List (Fin m)} (h : idx.Nodup)
    (μ y : Fin m → ℝ) :
    IsHeldOut μ A y idx
      ((fun k => y (idx.get k)) - (A⁻¹.submatrix idx.get idx.get)⁻¹ *ᵥ fun k => (A⁻¹ *ᵥ (y - μ)) (idx.get k))
      (A⁻¹.submatrix idx.get idx.get)⁻¹ := by
  have := heldOut_conditional hA idx.get (Subtype.val : Others idx → Fin m) (group_others_bijective h) μ y
  exact this.2

section
variable {K β : Type} [LinearOrder K] {m : Nat}

/-- Group indices as the code holds them. -/
def rawIndexer (indexer : SMap K (List (Fin m))) : SMap K (List Nat) :=
  indexer.map fun kv => (kv.1, kv.2.map (·.1))

theorem rawIndexer_wf {indexer : SMap K (List (Fin m))} (h : SMap.WF indexer) : SMap.WF (rawIndexer indexer) :=
  SMap.wf_map_values (fun kv : K × List (Fin m) => kv.2.map fun i : Fin m => i.1) h

variable (one : (d : Nat) → Matrix (Fin d) (Fin d) ℝ → (Fin d → ℝ) → (Fin d → ℝ) → Outcome β)
  {F : Ldlt (Fin m)} {A : Matrix (Fin m) (Fin m) ℝ} (hF : F.Factors A) (hA : A.PosDef) (y v : Fin m → ℝ)

include hF hA in
theorem heldOutBlocks_ok {indexer : SMap K (List (Fin m))} (hw : SMap.WF indexer) :
    heldOutBlocks F (rawIndexer indexer) = .ok (indexer.map fun kv => (kv.1, blockAt A⁻¹ kv.2)) := by
  have hv : SMap.values (rawIndexer indexer) = (indexer.map Prod.snd).map fun idx => idx.map (·.1) := by
    simp [SMap.values, rawIndexer, Function.comp_def]
  have hk : SMap.keys (rawIndexer indexer) = indexer.map Prod.fst := by
    simp [SMap.keys, rawIndexer, Function.comp_def]
  rw [heldOutBlocks, hv, C32_inverse_blocks F A hF hA]
  simp only [bind, Except.bind, pure, Except.pure]
  rw [hk, List.map_map]
  have hz : (indexer.map Prod.fst).zip (indexer.map (blockAt A⁻¹ ∘ Prod.snd)) =
      indexer.map fun kv => (kv.1, blockAt A⁻¹ kv.2) := by
    rw [List.zip_map']; rfl
  rw [hz, SMap.ofList_of_wf (SMap.wf_map_values (fun kv => blockAt A⁻¹ kv.2) hw)]

theorem heldOutGroup_ok {indexer : SMap K (List (Fin m))} (hw : SMap.WF indexer) {key : K} {idx : List (Fin m)}
    (hk : (key, idx) ∈ indexer) :
    heldOutGroup one (indexer.map fun kv => (kv.1, blockAt A⁻¹ kv.2)) y v key (idx.map (·.1)) =
      one idx.length (A⁻¹.submatrix idx.get idx.get) (fun i => y (idx.get i)) (fun i => v (idx.get i)) := by
  have h1 : SMap.at? (indexer.map fun kv => (kv.1, blockAt A⁻¹ kv.2)) key = .ok (blockAt A⁻¹ idx) := by
    rw [SMap.at?, SMap.find?_map_values indexer (fun kv => blockAt A⁻¹ kv.2), SMap.find?_of_mem hw hk]
    rfl
  rw [heldOutGroup, h1, columnIndices_ok]
  simp [bind, Except.bind, blockAt]

include hF hA in
theorem heldOutPredictions_ok {indexer : SMap K (List (Fin m))} (hw : SMap.WF indexer)
    (val : List (Fin m) → β)
    (hone : ∀ kv ∈ indexer, one kv.2.length (A⁻¹.submatrix kv.2.get kv.2.get) (fun i => y (kv.2.get i))
      (fun i => v (kv.2.get i)) = .ok (val kv.2)) :
    heldOutPredictions one F y v (rawIndexer indexer) = .ok (indexer.map fun kv => (kv.1, val kv.2)) := by
  rw [heldOutPredictions, heldOutBlocks_ok hF hA hw]
  simp only [bind, Except.bind]
  rw [applyMapSerial_eq _ _ (rawIndexer_wf hw)]
  have : (rawIndexer indexer).mapM (fun x => heldOutGroup one (indexer.map fun kv => (kv.1, blockAt A⁻¹ kv.2)) y v
      x.1 x.2) = .ok (indexer.map fun kv => val kv.2) := by
    apply (mapM_ok_iff _ _ _).2
    simp only [rawIndexer, List.map_map]
    apply List.map_congr_left
    intro kv hkv
    simp only [Function.comp_apply]
    rw [heldOutGroup_ok (A := A) one y v hw (key := kv.1) (idx := kv.2) hkv, hone kv hkv]
  rw [this]
  simp only [Except.map, rawIndexer, List.map_map, Function.comp_def]
  rw [List.zip_map']

variable (ldlt : LdltRoutine) (hl : ∀ d (M : Matrix (Fin d) (Fin d) ℝ), M.PosDef → (ldlt d M).Factors M)

/-- The groups are sorted by key and no group contains an index twice. -/
def GoodGroups (indexer : SMap K (List (Fin m))) : Prop :=
  SMap.WF indexer ∧ ∀ kv ∈ indexer, kv.2.Nodup

/-- The conditional mean and covariance in closed form. -/
noncomputable def heldOutValue (A : Matrix (Fin m) (Fin m) ℝ) (v y : Fin m → ℝ) (idx : List (Fin m)) :
    Joint (Fin idx.length) :=
  ⟨(fun i => y (idx.get i)) - (A⁻¹.submatrix idx.get idx.get)⁻¹ *ᵥ (fun i => v (idx.get i)),
    (A⁻¹.submatrix idx.get idx.get)⁻¹⟩

include hF hA in
theorem heldOutPredictions_joint {indexer : SMap K (List (Fin m))} (hg : GoodGroups indexer) :
    heldOutPredictions heldOutJoint F y v (rawIndexer indexer) =
      .ok (indexer.map fun kv => (kv.1, ⟨kv.2.length, heldOutValue A v y kv.2⟩)) :=
  heldOutPredictions_ok heldOutJoint hF hA y v hg.1 (fun idx => ⟨idx.length, heldOutValue A v y idx⟩)
    (fun _ _ => rfl)

include hF hA hl in
theorem heldOutPredictions_mean {indexer : SMap K (List (Fin m))} (hg : GoodGroups indexer) :
    heldOutPredictions (heldOutMean ldlt) F y v (rawIndexer indexer) =
      .ok (indexer.map fun kv => (kv.1, ⟨kv.2.length, (heldOutValue A v y kv.2).mean⟩)) := by
  refine heldOutPredictions_ok (heldOutMean ldlt) hF hA y v hg.1
    (fun idx => ⟨idx.length, (heldOutValue A v y idx).mean⟩) (fun kv hkv => ?_)
  have hpd := hA.inv.submatrix (hg.2 kv hkv).injective_get
  have hr := (hl _ _ hpd).represents ((Matrix.isUnit_iff_isUnit_det _).1 hpd.isUnit)
  simp only [heldOutMean]
  rw [hr.solveVec]
  rfl

include hF hA hl in
theorem heldOutPredictions_marginal (b : Build) (uninit : Nat → ℝ) {indexer : SMap K (List (Fin m))}
    (hg : GoodGroups indexer) :
    heldOutPredictions (heldOutMarginal b uninit ldlt) F y v (rawIndexer indexer) =
      .ok (indexer.map fun kv => (kv.1, ⟨kv.2.length, (heldOutValue A v y kv.2).mean,
        fun i => (heldOutValue A v y kv.2).covariance i i⟩)) := by
  refine heldOutPredictions_ok (heldOutMarginal b uninit ldlt) hF hA y v hg.1
    (fun idx => ⟨idx.length, (heldOutValue A v y idx).mean, fun i => (heldOutValue A v y idx).covariance i i⟩)
    (fun kv hkv => ?_)
  have hpd := hA.inv.submatrix (hg.2 kv hkv).injective_get
  have hr := (hl _ _ hpd).represents ((Matrix.isUnit_iff_isUnit_det _).1 hpd.isUnit)
  simp only [heldOutMarginal]
  rw [C32_inverse_diagonal _ _ b (hl _ _ hpd) hpd _ (by simp), hr.solveVec]
  simp [bind, Except.bind, pure, Except.pure, heldOutValue]

theorem lookup_ok {V : Type} {indexer : SMap K (List (Fin m))} (hw : SMap.WF indexer)
    (f : List (Fin m) → V) {key : K} {idx : List (Fin m)} (hk : (key, idx) ∈ indexer) :
    SMap.find? (indexer.map fun kv => (kv.1, f kv.2)) key = some (f idx) := by
  rw [SMap.find?_map_values indexer (fun kv => f kv.2), SMap.find?_of_mem hw hk]
  rfl

include hl in
/-- C30: joint held-out predictions.  For every group the call returns the conditional mean and
covariance of the group's observations given all the others. -/
theorem C30_group_joint (prior : Joint (Fin m)) (truth : Marginal (Fin m))
    (hA : (prior.covariance + diagonal truth.variance).PosDef) {indexer : SMap K (List (Fin m))}
    (hg : GoodGroups indexer) :
    ∃ out : SMap K DynJoint, leaveOneGroupOutConditional heldOutJoint ldlt prior truth (rawIndexer indexer) = .ok out ∧
      SMap.keys out = SMap.keys indexer ∧
      ∀ key idx, (key, idx) ∈ indexer → ∃ dist : Joint (Fin idx.length),
        out.find? key = some ⟨idx.length, dist⟩ ∧
        IsHeldOut prior.mean (prior.covariance + diagonal truth.variance) truth.mean idx dist.mean dist.covariance := by
  set A := prior.covariance + diagonal truth.variance with hAdef
  have hF := hl m A hA
  have hr := hF.represents ((Matrix.isUnit_iff_isUnit_det _).1 hA.isUnit)
  refine ⟨_, heldOutPredictions_joint hF hA truth.mean _ hg, by simp [SMap.keys, Function.comp_def], ?_⟩
  intro key idx hk
  refine ⟨heldOutValue A (A⁻¹ *ᵥ (truth.mean - prior.mean)) truth.mean idx, ?_, ?_⟩
  · rw [← hAdef, hr.solveVec]
    exact lookup_ok hg.1 (fun idx => (⟨idx.length, heldOutValue A (A⁻¹ *ᵥ (truth.mean - prior.mean)) truth.mean idx⟩ :
      DynJoint)) hk
  · exact heldOut_spec hA (hg.2 _ hk) _ _

include hl in
/-- C30: mean and marginal held-out predictions are the mean and the diagonal of the joint ones. -/
theorem C30_group_forms (b : Build) (uninit : Nat → ℝ) (prior : Joint (Fin m)) (truth : Marginal (Fin m))
    (hA : (prior.covariance + diagonal truth.variance).PosDef) {indexer : SMap K (List (Fin m))}
    (hg : GoodGroups indexer) :
    ∃ joint : SMap K DynJoint,
      leaveOneGroupOutConditional heldOutJoint ldlt prior truth (rawIndexer indexer) = .ok joint ∧
      leaveOneGroupOutConditional (heldOutMarginal b uninit ldlt) ldlt prior truth (rawIndexer indexer) =
        .ok (joint.map fun kv => (kv.1, ⟨kv.2.dim, kv.2.dist.mean, fun i => kv.2.dist.covariance i i⟩)) ∧
      leaveOneGroupOutConditional (heldOutMean ldlt) ldlt prior truth (rawIndexer indexer) =
        .ok (joint.map fun kv => (kv.1, ⟨kv.2.dim, kv.2.dist.mean⟩)) := by
  have hF := hl m _ hA
  refine ⟨_, heldOutPredictions_joint hF hA truth.mean _ hg, ?_, ?_⟩
  · have := heldOutPredictions_marginal hF hA truth.mean
      ((ldlt m (prior.covariance + diagonal truth.variance)).solver.solveVec (truth.mean - prior.mean))
      ldlt hl b uninit hg
    rw [List.map_map]
    exact this
  · have := heldOutPredictions_mean hF hA truth.mean
      ((ldlt m (prior.covariance + diagonal truth.variance)).solver.solveVec (truth.mean - prior.mean)) ldlt hl hg
    rw [List.map_map]
    exact this

/-- C30: with a thread pool, whatever the schedule, the result is the serial one. -/
theorem C30_group_pool {indexer : SMap K (List (Fin m))} (hg : GoodGroups indexer) (T : Nat)
    (mem : Unit → Unit) (s : PoolState Unit Unit Fault β) (blocks : SMap K SqBlock)
    (hblocks : heldOutBlocks F (rawIndexer indexer) = .ok blocks)
    (hs : PoolReach (heldOutCall one blocks y v (rawIndexer indexer) T) mem s) (r : Outcome (List β))
    (hr : s.outcome = some r) :
    r.map (applyMapOutput (rawIndexer indexer)) = heldOutPredictions one F y v (rawIndexer indexer) := by
  rw [C17_apply_map_serial _ _ (rawIndexer_wf hg.1) T mem s hs r hr, heldOutPredictions, hblocks]
  rfl

include hl in
/-- C30: leave-one-out.  Each returned mean and variance is the conditional law of that observation
given all the others. -/
theorem C30_leave_one_out (b : Build) (uninit : Nat → ℝ) (prior : Joint (Fin m)) (truth : Marginal (Fin m))
    (hA : (prior.covariance + diagonal truth.variance).PosDef) :
    ∃ out : Marginal (Fin m), leaveOneOutConditional b uninit ldlt prior truth = .ok out ∧
      ∀ i, IsGaussianConditional (fun _ : Unit => prior.mean i) (fun j : { j // j ≠ i } => prior.mean j)
        (of fun _ _ => (prior.covariance + diagonal truth.variance) i i)
        (of fun _ j => (prior.covariance + diagonal truth.variance) i j)
        (of fun j k => (prior.covariance + diagonal truth.variance) j k)
        (fun j => truth.mean j) (fun _ => out.mean i) (of fun _ _ => out.variance i) := by
  set A := prior.covariance + diagonal truth.variance with hAdef
  have hF := hl m A hA
  have hr := hF.represents ((Matrix.isUnit_iff_isUnit_det _).1 hA.isUnit)
  refine ⟨⟨fun i => truth.mean i - (A⁻¹ *ᵥ (truth.mean - prior.mean)) i * (A⁻¹ i i)⁻¹, fun i => (A⁻¹ i i)⁻¹⟩, ?_, ?_⟩
  · rw [leaveOneOutConditional]
    simp only [leaveOneOutVariance]
    rw [← hAdef, C32_inverse_diagonal _ A b hF hA _ (by simp), hr.solveVec]
    simp only [bind, Except.bind, pure, Except.pure, Except.ok.injEq, Marginal.mk.injEq]
    constructor
    · funext i; simp
    · funext i; simp
  · intro i
    have hb : Function.Bijective (Sum.elim (fun _ : Unit => i) (Subtype.val : { j // j ≠ i } → Fin m)) := by
      constructor
      · rintro (a | a) (c | c) h
        · rfl
        · exact absurd h.symm c.2
        · exact absurd h a.2
        · exact congrArg Sum.inr (Subtype.ext h)
      · intro j
        by_cases hj : j = i
        · exact ⟨Sum.inl (), hj.symm⟩
        · exact ⟨Sum.inr ⟨j, hj⟩, rfl⟩
    have h := (heldOut_conditional hA (fun _ : Unit => i) _ hb prior.mean truth.mean).2
    have hinv : (A⁻¹.submatrix (fun _ : Unit => i) (fun _ : Unit => i))⁻¹ = of fun _ _ => (A⁻¹ i i)⁻¹ := by
      ext a c
      simp [Matrix.inv_def, Ring.inverse_eq_inv']
    rw [hinv] at h
    have hm : (fun _ : Unit => truth.mean i - (A⁻¹ *ᵥ (truth.mean - prior.mean)) i * (A⁻¹ i i)⁻¹) =
        (fun _ : Unit => truth.mean i) - (of fun _ _ : Unit => (A⁻¹ i i)⁻¹) *ᵥ
          fun _ => (A⁻¹ *ᵥ (truth.mean - prior.mean)) i := by
      funext k
      simp [Matrix.mulVec_eq_sum, mul_comm]
    simp only [hm]
    exact h

include hl in
/-- C30 for a Gaussian process: the closed-form cross-validated predictions are those of refitting on
the complement of the group and predicting at the group, with the observation noise of the group
added to the covariance.  Hypotheses: the measurement wrapper changes neither the covariance between
the group and the others nor the mean. -/
theorem C30_gp_refit {X : Type} (g : Gp X) (hsym : ∀ x y, g.cov x y = g.cov y x) (features : Fin m → X)
    (targets : Marginal (Fin m)) (hA : (obsCovariance g features targets.variance).PosDef)
    {indexer : SMap K (List (Fin m))} (hg : GoodGroups indexer)
    (hcross : ∀ key idx, (key, idx) ∈ indexer → ∀ i ∈ idx, ∀ j ∉ idx,
      g.cov (g.asMeas (features i)) (g.asMeas (features j)) = g.cov (features i) (features j))
    (hmean : ∀ i, g.mean (g.asMeas (features i)) = g.mean (features i))
    (ldltO : ∀ idx : List (Fin m), Matrix (Others idx) (Others idx) ℝ → Ldlt (Others idx))
    (hlO : ∀ idx M, M.PosDef → (ldltO idx M).Factors M) :
    ∃ out : SMap K DynJoint,
      gpCrossValidatedPredictions heldOutJoint ldlt g features targets (rawIndexer indexer) = .ok out ∧
      SMap.keys out = SMap.keys indexer ∧
      ∀ key idx, (key, idx) ∈ indexer →
        let refit := g.fit (ldltO idx) (fun j => features j) ⟨fun j => targets.mean j, fun j => targets.variance j⟩
        let test := fun k => features (idx.get k)
        out.find? key = some ⟨idx.length, (g.predictJoint refit test).mean,
          (g.predictJoint refit test).covariance +
            (obsCovariance g test (fun k => targets.variance (idx.get k)) - of fun k l => g.cov (test k) (test l))⟩ := by
  set A := obsCovariance g features targets.variance with hAdef
  have hAeq : g.covMat (fun i => g.asMeas (features i)) (fun i => g.asMeas (features i)) +
      diagonal targets.variance = A := (obsCovariance_eq g features targets.variance).symm
  have hF := hl m A hA
  have hAu := (Matrix.isUnit_iff_isUnit_det _).1 hA.isUnit
  have hfit := fit_fitOf g hsym (ldlt m) features targets hF hAu
  have hcall : gpCrossValidatedPredictions heldOutJoint ldlt g features targets (rawIndexer indexer) =
      heldOutPredictions heldOutJoint (ldlt m A) targets.mean (g.fit (ldlt m) features targets).information
        (rawIndexer indexer) := by
    rw [gpCrossValidatedPredictions, hAeq]
  refine ⟨_, hcall.trans (heldOutPredictions_joint hF hA _ _ hg), by simp [SMap.keys, Function.comp_def], ?_⟩
  intro key idx hk refit test
  rw [lookup_ok hg.1 (fun idx => (⟨idx.length, heldOutValue A (g.fit (ldlt m) features targets).information
    targets.mean idx⟩ : DynJoint)) hk]
  -- the held out value is the conditional
  have hspec := heldOut_spec hA (hg.2 _ hk) (fun i => g.mean (g.asMeas (features i))) targets.mean
  -- the refit is the conditional as well
  have hO : obsCovariance g (fun j : Others idx => features j) (fun j => targets.variance j) =
      of fun k l : Others idx => A k l := by
    ext k l
    simp [hAdef, obsCovariance, Subtype.ext_iff]
  have hOpd : (of fun k l : Others idx => A k l).PosDef := by
    have := hA.submatrix (e := (Subtype.val : Others idx → Fin m)) Subtype.val_injective
    exact this
  have hOu := (Matrix.isUnit_iff_isUnit_det _).1 hOpd.isUnit
  have hrefit := fit_fitOf g hsym (ldltO idx) (fun j : Others idx => features j)
    ⟨fun j => targets.mean j, fun j => targets.variance j⟩ (by simp only [hO]; exact hlO _ _ hOpd)
    (by simp only [hO]; exact hOu)
  simp only [hO] at hrefit
  have hOs : (of fun k l : Others idx => A k l)ᵀ = of fun k l : Others idx => A k l := hrefit.symm
  obtain ⟨h1, h2⟩ := (isGaussianConditional_iff hOs hOu).1 hspec
  have hinf : (g.fit (ldlt m) features targets).information =
      A⁻¹ *ᵥ (targets.mean - fun i => g.mean (g.asMeas (features i))) := hfit.information
  have hcr : (of fun (k : Fin idx.length) (l : Others idx) => A (idx.get k) l) =
      g.covMat test (fun j : Others idx => features j) := by
    ext k l
    have hne : idx.get k ≠ (l : Fin m) := fun h => l.2 (h ▸ List.get_mem idx k)
    have hx := hcross key idx hk (idx.get k) (List.get_mem idx k) l l.2
    simp only [List.get_eq_getElem] at hne hx
    simp [hAdef, obsCovariance, Gp.covMat, test, hne, hx]
  rw [predictJoint_of_fitOf g hsym hrefit]
  simp only [heldOutValue]
  congr 3
  · rw [hinf, h1, hcr]
    funext k
    simp only [Pi.add_apply, test]
    have : ((fun k : Others idx => targets.mean k) - fun k : Others idx => g.mean (g.asMeas (features k))) =
        fun i : Others idx => targets.mean i - g.mean (g.asMeas (features i)) := rfl
    rw [this, hmean]
    rfl
  · rw [h2, hcr, covMat_transpose g hsym]
    have hgg : (of fun k l => A (idx.get k) (idx.get l)) =
        obsCovariance g test (fun k => targets.variance (idx.get k)) := by
      ext k l
      have : (idx.get k = idx.get l) ↔ k = l := (hg.2 _ hk).injective_get.eq_iff
      simp only [List.get_eq_getElem] at this
      simp [hAdef, obsCovariance, test, this]
    rw [hgg]
    have : (of fun k l => g.cov (test k) (test l)) = g.covMat test test := rfl
    rw [this]
    abel

end

/-- The hypotheses of C30 are met: three observations in two groups, one of them out of order. -/
example : ∃ (prior : Joint (Fin 3)) (truth : Marginal (Fin 3)) (indexer : SMap Nat (List (Fin 3))),
    (prior.covariance + diagonal truth.variance).PosDef ∧ prior.covariance 0 1 ≠ 0 ∧ GoodGroups indexer ∧
    indexer = [(0, [2, 0]), (4, [1])] := by
  refine ⟨⟨0, of fun _ _ => 1⟩, ⟨fun i => i, fun _ => 1⟩, _, ?_, by simp, ?_, rfl⟩
  · refine Matrix.PosDef.posSemidef_add ?_ (Matrix.PosDef.diagonal fun _ => by norm_num)
    have := posSemidef_vecMulVec_self_star (fun _ : Fin 3 => (1 : ℝ))
    convert this using 1
    ext i j; simp [vecMulVec]
  · constructor
    · simp [SMap.WF]
    · decide

/-- The hypotheses of `C30_gp_refit` are met: three measured positions with noise. -/
example : ∃ (features : Fin 3 → Bool × ℝ) (targets : Marginal (Fin 3)) (indexer : SMap Nat (List (Fin 3))),
    (obsCovariance demoGp features targets.variance).PosDef ∧ GoodGroups indexer ∧
    indexer = [(0, [2, 0]), (4, [1])] ∧ (∀ key idx, (key, idx) ∈ indexer → ∀ i ∈ idx, ∀ j ∉ idx,
      demoGp.cov (demoGp.asMeas (features i)) (demoGp.asMeas (features j)) = demoGp.cov (features i) (features j)) ∧
    (∀ i, demoGp.mean (demoGp.asMeas (features i)) = demoGp.mean (features i)) := by
  refine ⟨fun i => (false, i), ⟨fun i => 2 * i, fun _ => 1⟩, _, ?_, ⟨?_, ?_⟩, rfl, ?_, ?_⟩
  · rw [obsCovariance_eq]
    exact Matrix.PosDef.posSemidef_add (demoGp_psd.matrix_fintype _) (Matrix.PosDef.diagonal fun _ => by norm_num)
  · simp [SMap.WF]
  · decide
  · intro key idx _ i hi j hj
    have : i ≠ j := fun h => hj (h ▸ hi)
    have : (i : ℝ) ≠ (j : ℝ) := by simpa [Fin.ext_iff] using this
    simp [demoGp, this]
  · intro i; rfl

end Albatross

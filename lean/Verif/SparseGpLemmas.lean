import Verif.SparseGp
import Verif.GpProps
import Verif.IndexingProps
import Mathlib.LinearAlgebra.Matrix.Block

/-! # Lemmas about the sparse Gaussian process model -/

namespace Albatross

open Matrix

theorem PosDef.isUnit_det' {n : Type} [Fintype n] [DecidableEq n] {A : Matrix n n ℝ} (h : A.PosDef) :
    IsUnit A.det := (Matrix.isUnit_iff_isUnit_det _).1 h.isUnit

theorem PosDef.transpose_eq' {n : Type} [Fintype n] {A : Matrix n n ℝ} (h : A.PosDef) : Aᵀ = A := by
  have := h.isHermitian.eq; rwa [conjTranspose_eq_transpose_of_trivial] at this

/-! ## Block diagonal decompositions -/

section blocks
variable {ι c c' : Type} [Fintype ι] {d : ι → Nat} [DecidableEq ι]
  {A : ∀ k, Ldlt (Fin (d k))} {D : ∀ k, Matrix (Fin (d k)) (Fin (d k)) ℝ}

/-- Rows of one block. -/
def rowsOf (X : Matrix (Σ k, Fin (d k)) c ℝ) (k : ι) : Matrix (Fin (d k)) c ℝ := of fun i j => X ⟨k, i⟩ j

theorem blockDiagonal'_mul_apply (X : Matrix (Σ k, Fin (d k)) c ℝ) (r : Σ k, Fin (d k)) (j : c) :
    (blockDiagonal' D * X) r j = (D r.1 * rowsOf X r.1) r.2 j := by
  obtain ⟨k, i⟩ := r
  rw [Matrix.mul_apply, Fintype.sum_sigma, Finset.sum_eq_single k]
  · simp [Matrix.mul_apply, rowsOf]
  · intro k' _ hk'
    exact Finset.sum_eq_zero fun x _ => by rw [blockDiagonal'_apply_ne _ _ _ (Ne.symm hk'), zero_mul]
  · simp

theorem blockDiagonal'_inv (hD : ∀ k, (D k).PosDef) :
    (blockDiagonal' D)⁻¹ = blockDiagonal' fun k => (D k)⁻¹ := by
  apply Matrix.inv_eq_right_inv
  rw [← blockDiagonal'_mul, ← blockDiagonal'_one]
  congr 1
  funext k
  exact Matrix.mul_nonsing_inv _ (PosDef.isUnit_det' (hD k))

theorem ldltsSqrtSolve_gram (hA : ∀ k, (A k).Factors (D k)) (hD : ∀ k, (D k).PosDef)
    (X : Matrix (Σ k, Fin (d k)) c ℝ) (Y : Matrix (Σ k, Fin (d k)) c' ℝ) :
    (ldltsSqrtSolve A X)ᵀ * ldltsSqrtSolve A Y = Xᵀ * ((blockDiagonal' D)⁻¹ * Y) := by
  rw [blockDiagonal'_inv hD]
  ext a b
  rw [Matrix.mul_apply, Matrix.mul_apply, Fintype.sum_sigma, Fintype.sum_sigma]
  refine Finset.sum_congr rfl fun k _ => ?_
  have h := congrFun (congrFun ((hA k).gram (hD k) (rowsOf X k) (rowsOf Y k)) a) b
  rw [Matrix.mul_apply, Matrix.mul_apply] at h
  refine Eq.trans ?_ (h.trans ?_)
  · rfl
  · exact Finset.sum_congr rfl fun i _ => by rw [blockDiagonal'_mul_apply]; rfl

theorem ldltsSolve_eq (hA : ∀ k, (A k).Factors (D k)) (hD : ∀ k, (D k).PosDef)
    (X : Matrix (Σ k, Fin (d k)) c ℝ) : ldltsSolve A X = (blockDiagonal' D)⁻¹ * X := by
  rw [blockDiagonal'_inv hD]
  ext ⟨k, i⟩ j
  rw [blockDiagonal'_mul_apply]
  exact congrFun (congrFun (((hA k).represents (PosDef.isUnit_det' (hD k))).2 _ (rowsOf X k)) i) j

theorem blockDiagonal'_posDef (hD : ∀ k, (D k).PosDef) : (blockDiagonal' D).PosDef := by
  refine Matrix.PosDef.of_dotProduct_mulVec_pos ?_ ?_
  · rw [Matrix.IsHermitian, blockDiagonal'_conjTranspose]
    congr 1
    funext k
    exact (hD k).isHermitian
  · intro x hx
    have hsplit : star x ⬝ᵥ (blockDiagonal' D *ᵥ x) =
        ∑ k, (fun i => x ⟨k, i⟩) ⬝ᵥ (D k *ᵥ fun i => x ⟨k, i⟩) := by
      rw [dotProduct, Fintype.sum_sigma]
      refine Finset.sum_congr rfl fun k _ => ?_
      refine Finset.sum_congr rfl fun i _ => ?_
      congr 1
      have h := blockDiagonal'_mul_apply (D := D) (of fun r (_ : Unit) => x r) ⟨k, i⟩ ()
      simpa [Matrix.mul_apply, mulVec, dotProduct, rowsOf] using h
    rw [hsplit]
    have hnn : ∀ k, 0 ≤ (fun i => x ⟨k, i⟩) ⬝ᵥ (D k *ᵥ fun i => x ⟨k, i⟩) := fun k => by
      have := (hD k).posSemidef.dotProduct_mulVec_nonneg fun i => x ⟨k, i⟩
      simpa using this
    obtain ⟨⟨k, i⟩, hki⟩ := Function.ne_iff.1 hx
    refine Finset.sum_pos' (fun k _ => hnn k) ⟨k, Finset.mem_univ _, ?_⟩
    have := (hD k).dotProduct_mulVec_pos (x := fun i => x ⟨k, i⟩)
      (fun h => hki (by simpa using congrFun h i))
    simpa using this

end blocks

theorem blockDiagonal'_det {l : Nat} {d : Fin l → Nat} (D : ∀ k, Matrix (Fin (d k)) (Fin (d k)) ℝ) :
    (blockDiagonal' D).det = ∏ k, (D k).det := by
  have h := (blockTriangular_blockDiagonal' D).det_fintype
  rw [h]
  refine Finset.prod_congr rfl fun k _ => ?_
  let e : Fin (d k) ≃ { i : (Σ k, Fin (d k)) // i.1 = k } :=
    ⟨fun i => ⟨⟨k, i⟩, rfl⟩, fun r => r.2 ▸ r.1.2, fun i => rfl, by
      rintro ⟨⟨k', i⟩, h⟩
      cases h
      rfl⟩
  rw [← det_submatrix_equiv_self e]
  congr 1
  ext i j
  simp [toSquareBlock, toSquareBlockProp, e]

theorem ldlts_logDeterminant {l : Nat} {d : Fin l → Nat} {A : ∀ k, Ldlt (Fin (d k))}
    {D : ∀ k, Matrix (Fin (d k)) (Fin (d k)) ℝ} (hA : ∀ k, (A k).Factors (D k))
    (hD : ∀ k, (D k).PosDef) : ∑ k, (A k).logDeterminant = Real.log (blockDiagonal' D).det := by
  rw [blockDiagonal'_det, Real.log_prod fun k _ => (hD k).det_pos.ne']
  exact Finset.sum_congr rfl fun k _ => C32_log_determinant _ _ (hA k) (hD k)

/-! ## QR decompositions -/

section qr
variable {m : Nat}

theorem upperView_upper (M : Matrix (Fin m) (Fin m) ℝ) : (upperView M).IsUpperTriangular := by
  intro i j hij
  exact if_neg (not_le.2 (show j < i from hij))

theorem upperView_idem (M : Matrix (Fin m) (Fin m) ℝ) : upperView (upperView M) = upperView M := by
  ext i j
  simp only [upperView, of_apply]
  split_ifs <;> rfl

theorem upperView_det (M : Matrix (Fin m) (Fin m) ℝ) : (upperView M).det = ∏ i, M i i := by
  rw [det_of_isUpperTriangular (upperView_upper M)]
  exact Finset.prod_congr rfl fun i _ => by simp [upperView]

/-- `R Pᵀ` for a permutation. -/
def timesPermT (R : Matrix (Fin m) (Fin m) ℝ) (P : Fin m ≃ Fin m) : Matrix (Fin m) (Fin m) ℝ :=
  R.submatrix id P.symm

theorem timesPermT_det_sq (R : Matrix (Fin m) (Fin m) ℝ) (P : Fin m ≃ Fin m) :
    ((timesPermT R P)ᵀ * timesPermT R P).det = R.det ^ 2 := by
  have h : (timesPermT R P)ᵀ * timesPermT R P = (Rᵀ * R).submatrix P.symm P.symm := by
    ext i j; simp [timesPermT, Matrix.mul_apply]
  rw [h, det_submatrix_equiv_self, det_mul, det_transpose, sq]

/-- With `Pᵀ`-permuted right hand sides: the gram matrix of `sqrt_solve(R, P, ·)`. -/
theorem qrSqrtSolve_gram {c c' : Type} {R : Matrix (Fin m) (Fin m) ℝ} {P : Fin m ≃ Fin m}
    (hR : upperView R = R) (hu : IsUnit ((timesPermT R P)ᵀ * timesPermT R P).det)
    (X : Matrix (Fin m) c ℝ) (Y : Matrix (Fin m) c' ℝ) :
    (qrSqrtSolve R P X)ᵀ * qrSqrtSolve R P Y = Xᵀ * (((timesPermT R P)ᵀ * timesPermT R P)⁻¹ * Y) := by
  have hRu : IsUnit R.det := by
    rw [timesPermT_det_sq] at hu
    exact isUnit_of_mul_isUnit_left (by rwa [sq] at hu)
  have hTu : IsUnit (timesPermT R P).det := by
    rw [det_mul] at hu
    exact isUnit_of_mul_isUnit_right hu
  have key : ∀ {c : Type} (Z : Matrix (Fin m) c ℝ), qrSqrtSolve R P Z = ((timesPermT R P)ᵀ)⁻¹ * Z := by
    intro c Z
    rw [qrSqrtSolve, hR]
    have h1 : (timesPermT R P)ᵀ = Rᵀ.submatrix P.symm id := by ext i j; rfl
    have h2 := Matrix.inv_submatrix_equiv Rᵀ P.symm (Equiv.refl _)
    rw [Equiv.coe_refl] at h2
    rw [h1, h2]
    ext i j
    simp only [Matrix.mul_apply, submatrix_apply, Equiv.coe_refl, id]
    exact Fintype.sum_equiv P _ _ fun x => by simp
  rw [key, key, transpose_mul, transpose_nonsing_inv, transpose_transpose, Matrix.mul_inv_rev]
  simp only [Matrix.mul_assoc]

theorem Qr.solve_full {ρ : Type} [Fintype ρ] (q : Qr ρ m) (h : q.rank.1 = m) (y : ρ → ℝ) :
    q.solve y = fun i => ((upperView q.matrixR)⁻¹ *ᵥ (q.Qᵀ *ᵥ y)) (q.perm.symm i) := by
  obtain ⟨Q, R, P, ⟨r, hr⟩⟩ := q
  simp only at h
  subst h
  funext i
  simp [Qr.solve]

theorem Qr.Factors.gram {ρ : Type} [Fintype ρ] {q : Qr ρ m} {B : Matrix ρ (Fin m) ℝ} (h : q.Factors B) :
    (timesPermT q.getR q.perm)ᵀ * timesPermT q.getR q.perm = Bᵀ * B := by
  have hB : B = q.Q * timesPermT q.getR q.perm := by
    have h1 := congrArg (fun M => M.submatrix id q.perm.symm) h.factor
    simp only [submatrix_submatrix, Function.comp_id, Equiv.self_comp_symm] at h1
    rw [show B = B.submatrix id id from rfl, h1]
    ext i j; simp [Matrix.mul_apply, timesPermT, Qr.getR]
  rw [hB, transpose_mul, Matrix.mul_assoc, ← Matrix.mul_assoc q.Qᵀ, h.orthonormal, Matrix.one_mul]

theorem Qr.Factors.solve_eq {ρ : Type} [Fintype ρ] {q : Qr ρ m} {B : Matrix ρ (Fin m) ℝ} (h : q.Factors B)
    (hB : (Bᵀ * B).PosDef) (y : ρ → ℝ) :
    q.rank.1 = m ∧ (Bᵀ * B) *ᵥ q.solve y = Bᵀ *ᵥ y := by
  have hu := PosDef.isUnit_det' hB
  rw [← h.gram, timesPermT_det_sq] at hu
  have hRu : IsUnit (upperView q.matrixR).det := isUnit_of_mul_isUnit_left (by rwa [sq] at hu)
  have hd : ∀ i, q.matrixR i i ≠ 0 := by
    intro i hi
    have h0 : ∏ i, q.matrixR i i = 0 := Finset.prod_eq_zero (Finset.mem_univ i) hi
    rw [upperView_det, h0] at hRu
    exact not_isUnit_zero hRu
  have hr := h.full hd
  refine ⟨hr, ?_⟩
  have hs : q.solve y = (fun i => ((upperView q.matrixR)⁻¹ *ᵥ (q.Qᵀ *ᵥ y)) (q.perm.symm i)) := q.solve_full hr y
  have hBs : B *ᵥ q.solve y = q.Q *ᵥ (q.Qᵀ *ᵥ y) := by
    have h1 : B *ᵥ q.solve y = (B.submatrix id q.perm) *ᵥ ((upperView q.matrixR)⁻¹ *ᵥ (q.Qᵀ *ᵥ y)) := by
      rw [hs]
      funext i
      simp only [mulVec, dotProduct, submatrix_apply, id]
      exact (Fintype.sum_equiv q.perm _ _ fun x => by simp).symm
    rw [h1, h.factor, ← mulVec_mulVec, mulVec_mulVec (q.Qᵀ *ᵥ y), Matrix.mul_nonsing_inv _ hRu, one_mulVec]
  have hBT : Bᵀ * (q.Q * q.Qᵀ) = Bᵀ := by
    have hQ : B = q.Q * timesPermT q.getR q.perm := by
      have h1 := congrArg (fun M => M.submatrix id q.perm.symm) h.factor
      simp only [submatrix_submatrix, Function.comp_id, Equiv.self_comp_symm] at h1
      rw [show B = B.submatrix id id from rfl, h1]
      ext i j; simp [Matrix.mul_apply, timesPermT, Qr.getR]
    rw [hQ, transpose_mul, ← Matrix.mul_assoc, Matrix.mul_assoc _ q.Qᵀ, h.orthonormal, Matrix.mul_one]
  rw [← mulVec_mulVec, hBs, mulVec_mulVec, mulVec_mulVec, Matrix.mul_assoc, hBT]

theorem Qr.Factors.logDet {ρ : Type} [Fintype ρ] {q : Qr ρ m} {B : Matrix ρ (Fin m) ℝ} (h : q.Factors B)
    (hB : (Bᵀ * B).PosDef) :
    2 * ∑ i, Real.log |q.matrixR i i| = Real.log (Bᵀ * B).det := by
  have hu := PosDef.isUnit_det' hB
  rw [← h.gram, timesPermT_det_sq] at hu
  have hRu : IsUnit (upperView q.matrixR).det := isUnit_of_mul_isUnit_left (by rwa [sq] at hu)
  have hd : ∀ i, q.matrixR i i ≠ 0 := by
    intro i hi
    have h0 : ∏ i, q.matrixR i i = 0 := Finset.prod_eq_zero (Finset.mem_univ i) hi
    rw [upperView_det, h0] at hRu
    exact not_isUnit_zero hRu
  rw [← h.gram, timesPermT_det_sq, Real.log_pow, Qr.getR, upperView_det,
    Real.log_prod fun i _ => hd i]
  simp [Real.log_abs]

/-- A decomposition exists for all matrices with independent columns. -/
theorem exists_qr {ρ : Type} [Fintype ρ] (B : Matrix ρ (Fin m) ℝ) (hB : (Bᵀ * B).PosDef) :
    ∃ q : Qr ρ m, q.Factors B := by
  obtain ⟨L, d, h1, h2, h3⟩ := Ldlt.exists_lower hB
  have hF : (⟨m, Equiv.refl _, L, d⟩ : Ldlt (Fin m)).Factors (Bᵀ * B) := ⟨h1, h2, by simpa using h3⟩
  have hd : ∀ i, 0 < d i := hF.posDef_iff.1 hB
  set R : Matrix (Fin m) (Fin m) ℝ := diagonal (fun i => Real.sqrt (d i)) * Lᵀ with hR
  have hup : upperView R = R := by
    ext i j
    simp only [upperView, of_apply]
    split
    · rfl
    · next h => simp [hR, h2 j i (not_le.1 h)]
  have hRR : Rᵀ * R = Bᵀ * B := by
    have hsq : diagonal (fun i => Real.sqrt (d i)) * diagonal (fun i => Real.sqrt (d i)) = diagonal d := by
      rw [diagonal_mul_diagonal]
      congr 1; funext i; exact Real.mul_self_sqrt (hd i).le
    rw [h3, hR, transpose_mul, transpose_transpose, diagonal_transpose, ← Matrix.mul_assoc,
      Matrix.mul_assoc L, hsq]
  have hRu : IsUnit R.det := by
    have hu := PosDef.isUnit_det' hB
    rw [← hRR, det_mul] at hu
    exact isUnit_of_mul_isUnit_right hu
  refine ⟨⟨B * R⁻¹, R, Equiv.refl _, ⟨m, Nat.lt_succ_self m⟩⟩, ?_, ?_, fun _ => rfl⟩
  · have hRTu : IsUnit (Rᵀ).det := by rwa [det_transpose]
    change (B * R⁻¹)ᵀ * (B * R⁻¹) = 1
    rw [transpose_mul, Matrix.mul_assoc, ← Matrix.mul_assoc Bᵀ, ← hRR, Matrix.mul_assoc,
      Matrix.mul_nonsing_inv _ hRu, Matrix.mul_one, transpose_nonsing_inv, Matrix.nonsing_inv_mul _ hRTu]
  · change B.submatrix id id = B * R⁻¹ * upperView R
    rw [hup, Matrix.mul_assoc, Matrix.nonsing_inv_mul _ hRu, Matrix.mul_one]
    rfl

/-- What is assumed of the decompositions: LDLT meets its contract on positive definite matrices, QR on
matrices with independent columns. -/
structure SparseRoutines.Meets (rt : SparseRoutines) : Prop where
  ldlt : ∀ (d : Nat) (M : Matrix (Fin d) (Fin d) ℝ), M.PosDef → (rt.ldlt d M).Factors M
  qr : ∀ (ρ : Type) [Fintype ρ] (m : Nat) (B : Matrix ρ (Fin m) ℝ), (Bᵀ * B).PosDef → (rt.qr B).Factors B

theorem exists_routines : ∃ rt : SparseRoutines, rt.Meets := by
  classical
  choose ldlt hldlt using fun d : Nat => exists_ldlt (Fin d)
  refine ⟨⟨ldlt, fun {ρ m} B => if h : ∃ q : Qr ρ m, ∃ _ : Fintype ρ, q.Factors B then h.choose
    else ⟨0, 0, Equiv.refl _, 0⟩⟩, hldlt, ?_⟩
  intro ρ hρ m B hB
  obtain ⟨q, hq⟩ := exists_qr B hB
  have h : ∃ q : Qr ρ m, ∃ _ : Fintype ρ, q.Factors B := ⟨q, hρ, hq⟩
  simp only [h, dif_pos]
  obtain ⟨hρ', hc⟩ := h.choose_spec
  rwa [Subsingleton.elim hρ hρ']

end qr

/-! ## Groups -/

section groups
variable {X κ : Type} [LinearOrder κ] {n : Nat}

theorem groupRows_ok {idx : List Nat} {g : GroupRows n} (h : groupRows n idx = .ok g) (hnd : idx.Nodup) :
    Function.Injective g.pos ∧ ∀ i : Fin n, (∃ j, g.pos j = i) ↔ i.1 ∈ idx := by
  unfold groupRows at h
  split at h
  · injection h with h
    subst h
    constructor
    · intro a b hab
      have h1 : idx[a.1] = idx[b.1] := congrArg Fin.val hab
      exact Fin.ext ((hnd.getElem_inj_iff).1 h1)
    · intro i
      constructor
      · rintro ⟨j, rfl⟩
        exact List.getElem_mem j.2
      · intro hi
        obtain ⟨a, ha, hai⟩ := List.mem_iff_getElem.1 hi
        exact ⟨⟨a, ha⟩, Fin.ext hai⟩
  · cases h

/-- The groups exist, they partition the positions, and two rows are in one group exactly when their
keys agree. -/
theorem groups_ok (grp : X → κ) (features : Fin n → X) :
    ∃ groups : List (GroupRows n),
      (buildIndexer grp (List.ofFn features)).mapM (fun pair => groupRows n pair.2) = .ok groups ∧
      Function.Bijective (rowPos groups) ∧
      ∀ r s : Row groups, r.1 = s.1 ↔ grp (features (rowPos groups r)) = grp (features (rowPos groups s)) := by
  obtain ⟨hw, hk, hu⟩ := C01_group_by_partitions grp (List.ofFn features)
  set ix := buildIndexer grp (List.ofFn features) with hix
  have hmem : ∀ p ∈ ix, p.2.Nodup ∧ ∀ i, i ∈ p.2 ↔ ∃ h : i < n, grp (features ⟨i, h⟩) = p.1 := by
    intro p hp
    obtain ⟨-, h2, h3⟩ := hk p.1 p.2 (SMap.find?_of_mem hw hp)
    refine ⟨h2.imp (fun h => ne_of_lt h), fun i => (h3 i).trans ?_⟩
    constructor
    · rintro ⟨x, hx, hg⟩
      rw [List.getElem?_ofFn] at hx
      split at hx
      · next h => cases hx; exact ⟨h, hg⟩
      · cases hx
    · rintro ⟨h, hg⟩
      exact ⟨_, by rw [List.getElem?_ofFn, dif_pos h], hg⟩
  have hex : ∃ groups : List (GroupRows n), ix.mapM (fun pair => groupRows n pair.2) = .ok groups := by
    suffices H : ∀ l : List (κ × List Nat), (∀ p ∈ l, ∀ i ∈ p.2, i < n) →
        ∃ groups : List (GroupRows n), l.mapM (fun pair => groupRows n pair.2) = .ok groups from
      H ix fun p hp i hi => (((hmem p hp).2 i).1 hi).1
    intro l
    induction l with
    | nil => intro _; exact ⟨[], rfl⟩
    | cons p l ih =>
      intro h
      obtain ⟨gs, hgs⟩ := ih fun q hq => h q (List.mem_cons_of_mem _ hq)
      obtain ⟨g, hg⟩ : ∃ g, groupRows n p.2 = .ok g :=
        ⟨_, by rw [groupRows, dif_pos (h p List.mem_cons_self)]⟩
      refine ⟨g :: gs, ?_⟩
      rw [List.mapM_cons, hg, hgs]
      rfl
  obtain ⟨groups, hg⟩ := hex
  have hf := (mapM_ok_iff _ _ _).1 hg
  have hlen : ix.length = groups.length := by simpa using congrArg List.length hf
  have hget : ∀ k : Fin groups.length, groupRows n (ix[k.1]'(hlen.symm ▸ k.2)).2 = .ok (groups.get k) := by
    intro k
    have h1 := congrArg (·[k.1]?) hf
    simpa [k.2, hlen] using h1
  have hkey : ∀ r : Row groups, grp (features (rowPos groups r)) = (ix[r.1.1]'(hlen.symm ▸ r.1.2)).1 := by
    intro r
    have hm := hmem _ (List.getElem_mem (hlen.symm ▸ r.1.2 : r.1.1 < ix.length))
    have h1 := ((groupRows_ok (hget r.1) hm.1).2 (rowPos groups r)).1 ⟨r.2, rfl⟩
    exact ((hm.2 _).1 h1).2
  have hsame : ∀ r s : Row groups, r.1 = s.1 ↔
      grp (features (rowPos groups r)) = grp (features (rowPos groups s)) := by
    intro r s
    rw [hkey, hkey]
    constructor
    · intro h; simp only [h]
    · intro h
      have hnd : (ix.map Prod.fst).Nodup := List.pairwise_map.2 (hw.imp fun h => ne_of_lt h)
      have h2 : (ix.map Prod.fst)[r.1.1]'(by rw [List.length_map, hlen]; exact r.1.2) =
          (ix.map Prod.fst)[s.1.1]'(by rw [List.length_map, hlen]; exact s.1.2) := by
        simpa using h
      exact Fin.ext ((hnd.getElem_inj_iff).1 h2)
  refine ⟨groups, hg, ⟨?_, ?_⟩, hsame⟩
  · rintro ⟨k, i⟩ ⟨k', j⟩ h
    have hkk : k = k' := (hsame ⟨k, i⟩ ⟨k', j⟩).2 (by rw [h])
    subst hkk
    have hm := hmem _ (List.getElem_mem (hlen.symm ▸ k.2 : k.1 < ix.length))
    have hij : i = j := (groupRows_ok (hget k) hm.1).1 h
    rw [hij]
  · intro i
    obtain ⟨key, ⟨is, h1, h2⟩, -⟩ := hu i.1 (by simp)
    obtain ⟨a, ha, hai⟩ := List.mem_iff_getElem.1 (SMap.mem_of_find? h1)
    have hm := hmem _ (List.getElem_mem ha)
    have ha' : a < groups.length := hlen ▸ ha
    obtain ⟨j, hj⟩ := ((groupRows_ok (hget ⟨a, ha'⟩) hm.1).2 i).2 (by
      show i.1 ∈ (ix[a]).2
      rw [hai]; exact h2)
    exact ⟨⟨⟨a, ha'⟩, j⟩, hj⟩

end groups

/-! ## The low rank model -/

section model
variable {X κ : Type} [LinearOrder κ] {n m : Nat}

/-- `K_uu`, with the inducing nugget. -/
def sparseK (g : SparseGp X κ) (u : Fin m → X) : Matrix (Fin m) (Fin m) ℝ :=
  of fun i j => g.gp.cov (u i) (u j) + if i = j then g.inducingNugget else 0

/-- `Q = K_{·u} K_uu⁻¹ K_{u·}`. -/
noncomputable def sparseQ (g : SparseGp X κ) (u : Fin m → X) {a b : Type} (xs : a → X) (ys : b → X) :
    Matrix a b ℝ :=
  g.gp.covMat xs u * (sparseK g u)⁻¹ * g.gp.covMat u ys

/-- `blockdiag(K_ff - Q_ff) + R`: within a group the covariance that is not explained by the inducing
points, zero between groups, and on the diagonal the target variances and the measurement nugget. -/
noncomputable def sparseA (g : SparseGp X κ) (u : Fin m → X) (features : Fin n → X) (variance : Fin n → ℝ) :
    Matrix (Fin n) (Fin n) ℝ :=
  let z := fun i => g.gp.asMeas (features i)
  of fun i j =>
    (if g.group (features i) = g.group (features j) then g.gp.cov (z i) (z j) - sparseQ g u z z i j else 0) +
      (if i = j then variance i + g.measurementNugget else 0)

theorem sparseK_eq (g : SparseGp X κ) (u : Fin m → X) :
    g.gp.covMat u u + (diagonal fun _ => g.inducingNugget) = sparseK g u := by
  ext i j
  simp [sparseK, Gp.covMat, diagonal_apply]

theorem inv_submatrix_equiv' {a b : Type} [Fintype a] [DecidableEq a] [Fintype b] [DecidableEq b]
    (A : Matrix a a ℝ) (e : b ≃ a) : (A.submatrix e e)⁻¹ = A⁻¹.submatrix e e :=
  Matrix.inv_submatrix_equiv A e e

theorem components_ok (g : SparseGp X κ) (hsym : ∀ x y, g.gp.cov x y = g.gp.cov y x) {rt : SparseRoutines}
    (hrt : rt.Meets) (u : Fin m → X) (features : Fin n → X) (targets : Marginal (Fin n))
    (hK : (sparseK g u).PosDef) (hA : (sparseA g u features targets.variance).PosDef) :
    let z := fun i => g.gp.asMeas (features i)
    let A := sparseA g u features targets.variance
    ∃ c, g.components rt u features targets = .ok c ∧ c.Kuu.Factors (sparseK g u) ∧
      (ldltsSqrtSolve c.A c.Kfu)ᵀ * ldltsSqrtSolve c.A c.Kfu =
        g.gp.covMat u z * (A⁻¹ * g.gp.covMat z u) ∧
      (ldltsSqrtSolve c.A c.Kfu)ᵀ *ᵥ SparseGp.sqrtSolveY c = g.gp.covMat u z *ᵥ (A⁻¹ *ᵥ targets.mean) ∧
      (let yA := fun r => ldltsSolve c.A (of fun r (_ : Unit) => c.y r) r ()
       c.y ⬝ᵥ yA = targets.mean ⬝ᵥ (A⁻¹ *ᵥ targets.mean) ∧
       c.Kfuᵀ *ᵥ yA = g.gp.covMat u z *ᵥ (A⁻¹ *ᵥ targets.mean)) ∧
      ∑ k, (c.A k).logDeterminant = Real.log A.det := by
  intro z A
  obtain ⟨groups, hg, hbij, hsame⟩ := groups_ok g.group features
  set F := rt.ldlt m (g.gp.covMat u u + diagonal fun _ => g.inducingNugget) with hF
  have hFK : F.Factors (sparseK g u) := by
    rw [hF, sparseK_eq]; exact hrt.ldlt _ _ hK
  set Kfu : Matrix (Row groups) (Fin m) ℝ :=
    g.gp.covMat (fun r : Row groups => g.gp.asMeas (features (rowPos groups r))) u with hKfu
  set D := fun k => g.groupA F Kfu features targets k with hD
  let e : Row groups ≃ Fin n := Equiv.ofBijective _ hbij
  have he : ∀ r, e r = rowPos groups r := fun _ => rfl
  have hKT : ∀ {a b : Type} (xs : a → X) (ys : b → X), (g.gp.covMat xs ys)ᵀ = g.gp.covMat ys xs :=
    fun xs ys => covMat_transpose g.gp hsym xs ys
  have hDk : ∀ k i j, D k i j = A (rowPos groups ⟨k, i⟩) (rowPos groups ⟨k, j⟩) := by
    intro k i j
    have hgram := congrFun (congrFun (hFK.gram hK (Kfuᵀ) (Kfuᵀ)) ⟨k, i⟩) ⟨k, j⟩
    have hPQ : (F.sqrtSolve Kfuᵀ)ᵀ * F.sqrtSolve Kfuᵀ =
        (sparseQ g u z z).submatrix (rowPos groups) (rowPos groups) := by
      rw [hFK.gram hK, transpose_transpose, ← Matrix.mul_assoc]
      rw [hKfu, hKT]
      rfl
    have h1 := congrFun (congrFun hPQ ⟨k, i⟩) ⟨k, j⟩
    have hinj : (groups.get k).pos i = (groups.get k).pos j ↔ i = j := by
      constructor
      · intro h
        have := hbij.1 (a₁ := ⟨k, i⟩) (a₂ := ⟨k, j⟩) h
        simpa using this
      · rintro rfl; rfl
    simp only [hD, SparseGp.groupA, Matrix.add_apply, Matrix.sub_apply]
    rw [show (((F.sqrtSolve Kfuᵀ).submatrix id fun j => (⟨k, j⟩ : Row groups))ᵀ *
      ((F.sqrtSolve Kfuᵀ).submatrix id fun j => (⟨k, j⟩ : Row groups))) i j =
      ((F.sqrtSolve Kfuᵀ)ᵀ * F.sqrtSolve Kfuᵀ) ⟨k, i⟩ ⟨k, j⟩ from rfl, h1]
    simp only [A, sparseA, of_apply, submatrix_apply]
    rw [if_pos ((hsame ⟨k, i⟩ ⟨k, j⟩).1 rfl)]
    simp only [Gp.covMat, of_apply, diagonal_apply, rowPos, hinj, z]
    split_ifs <;> ring
  have hblock : blockDiagonal' D = A.submatrix e e := by
    ext ⟨k, i⟩ ⟨k', j⟩
    by_cases h : k = k'
    · subst h
      rw [blockDiagonal'_apply_eq, hDk]
      rfl
    · rw [blockDiagonal'_apply_ne _ _ _ h, submatrix_apply]
      have h1 : ¬ g.group (features (rowPos groups ⟨k, i⟩)) = g.group (features (rowPos groups ⟨k', j⟩)) :=
        fun hh => h ((hsame ⟨k, i⟩ ⟨k', j⟩).2 hh)
      have h2 : ¬ rowPos groups ⟨k, i⟩ = rowPos groups ⟨k', j⟩ := fun hh => h1 (by rw [hh])
      simp only [A, sparseA, of_apply, he]
      rw [if_neg h1, if_neg h2, add_zero]
  have hDpd : ∀ k, (D k).PosDef := by
    intro k
    have h1 : D k = A.submatrix (fun i => rowPos groups ⟨k, i⟩) (fun i => rowPos groups ⟨k, i⟩) := by
      ext i j; exact hDk k i j
    rw [h1]
    refine Matrix.PosDef.submatrix hA ?_
    intro i j h
    have := hbij.1 (a₁ := ⟨k, i⟩) (a₂ := ⟨k, j⟩) h
    simpa using this
  have hAk : ∀ k, (rt.ldlt _ (D k)).Factors (D k) := fun k => hrt.ldlt _ _ (hDpd k)
  have hinv : (blockDiagonal' D)⁻¹ = A⁻¹.submatrix e e := by rw [hblock, inv_submatrix_equiv']
  have hKfue : Kfu = (g.gp.covMat z u).submatrix e id := rfl
  refine ⟨⟨groups, fun k => rt.ldlt _ (D k), F, Kfu, fun r => targets.mean (rowPos groups r)⟩, ?_, hFK, ?_, ?_,
    ⟨?_, ?_⟩, ?_⟩
  · rw [SparseGp.components]
    simp only [hg]
    rfl
  · rw [ldltsSqrtSolve_gram hAk hDpd, hinv, hKfue, transpose_submatrix, hKT,
      submatrix_mul_equiv, submatrix_mul_equiv]
    rfl
  · have h1 := ldltsSqrtSolve_gram hAk hDpd Kfu
      (of fun r (_ : Unit) => targets.mean (rowPos groups r) : Matrix (Row groups) Unit ℝ)
    have h2 : (of fun r (_ : Unit) => targets.mean (rowPos groups r) : Matrix (Row groups) Unit ℝ) =
        (of fun i (_ : Unit) => targets.mean i : Matrix (Fin n) Unit ℝ).submatrix e id := rfl
    rw [h2, hinv, hKfue, transpose_submatrix, hKT, submatrix_mul_equiv, submatrix_mul_equiv] at h1
    funext i
    exact congrFun (congrFun h1 i) ()
  · have h1 := ldltsSolve_eq hAk hDpd
      (of fun r (_ : Unit) => targets.mean (rowPos groups r) : Matrix (Row groups) Unit ℝ)
    simp only [h1]
    rw [hinv]
    have h2 : (of fun r (_ : Unit) => targets.mean (rowPos groups r) : Matrix (Row groups) Unit ℝ) =
        (of fun i (_ : Unit) => targets.mean i : Matrix (Fin n) Unit ℝ).submatrix e id := rfl
    rw [h2, submatrix_mul_equiv]
    exact Fintype.sum_equiv e _ _ fun r => rfl
  · have h1 := ldltsSolve_eq hAk hDpd
      (of fun r (_ : Unit) => targets.mean (rowPos groups r) : Matrix (Row groups) Unit ℝ)
    simp only [h1]
    rw [hinv]
    have h2 : (of fun r (_ : Unit) => targets.mean (rowPos groups r) : Matrix (Row groups) Unit ℝ) =
        (of fun i (_ : Unit) => targets.mean i : Matrix (Fin n) Unit ℝ).submatrix e id := rfl
    rw [h2, submatrix_mul_equiv, hKfue, transpose_submatrix, hKT]
    funext i
    exact Fintype.sum_equiv e _ _ fun r => rfl
  · rw [ldlts_logDeterminant hAk hDpd, hblock, det_submatrix_equiv_self]

/-! ## What a fit holds -/

/-- `K_uf A⁻¹ K_fu`: the information in a data set. -/
noncomputable def sparseGain (g : SparseGp X κ) (u : Fin m → X) (features : Fin n → X) (variance : Fin n → ℝ) :
    Matrix (Fin m) (Fin m) ℝ :=
  let z := fun i => g.gp.asMeas (features i)
  g.gp.covMat u z * ((sparseA g u features variance)⁻¹ * g.gp.covMat z u)

/-- `K_uf A⁻¹ y`. -/
noncomputable def sparseRhs (g : SparseGp X κ) (u : Fin m → X) (features : Fin n → X)
    (targets : Marginal (Fin n)) : Fin m → ℝ :=
  let z := fun i => g.gp.asMeas (features i)
  g.gp.covMat u z *ᵥ ((sparseA g u features targets.variance)⁻¹ *ᵥ targets.mean)

/-- The fit holds the statistics `M` and `b` for the inducing points `u`. -/
structure SparseFit.Holds (f : SparseFit X m) (g : SparseGp X κ) (u : Fin m → X)
    (M : Matrix (Fin m) (Fin m) ℝ) (b : Fin m → ℝ) : Prop where
  features : f.features = u
  cov : f.trainCovariance.Factors (sparseK g u)
  posDef : M.PosDef
  upper : upperView f.R = f.R
  gram : (timesPermT f.R f.P)ᵀ * timesPermT f.R f.P = M
  info : M *ᵥ f.information = b

theorem sparseGain_psd (g : SparseGp X κ) (hsym : ∀ x y, g.gp.cov x y = g.gp.cov y x) (u : Fin m → X)
    (features : Fin n → X) (variance : Fin n → ℝ) (hA : (sparseA g u features variance).PosDef) :
    (sparseGain g u features variance).PosSemidef := by
  have h := hA.inv.posSemidef.conjTranspose_mul_mul_same (g.gp.covMat (fun i => g.gp.asMeas (features i)) u)
  rw [conjTranspose_eq_transpose_of_trivial, covMat_transpose g.gp hsym, Matrix.mul_assoc] at h
  exact h

theorem fitWith_ok (g : SparseGp X κ) (hsym : ∀ x y, g.gp.cov x y = g.gp.cov y x) {rt : SparseRoutines}
    (hrt : rt.Meets) (u : Fin m → X) (features : Fin n → X) (targets : Marginal (Fin n))
    (hK : (sparseK g u).PosDef) (hA : (sparseA g u features targets.variance).PosDef) :
    ∃ f, g.fitWith rt u features targets = .ok f ∧
      f.Holds g u (sparseK g u + sparseGain g u features targets.variance) (sparseRhs g u features targets) := by
  obtain ⟨c, hc, hKuu, hT, hy, -, -⟩ := components_ok g hsym hrt u features targets hK hA
  have hBB : (SparseGp.sigmaB c)ᵀ * SparseGp.sigmaB c =
      sparseK g u + sparseGain g u features targets.variance := by
    rw [SparseGp.sigmaB, transpose_fromRows, fromCols_mul_fromRows, hT, Ldlt.sqrtTranspose_eq,
      transpose_transpose, hKuu.root_mul hK.posSemidef, add_comm]
    rfl
  have hM : (sparseK g u + sparseGain g u features targets.variance).PosDef :=
    hK.add_posSemidef (sparseGain_psd g hsym u features _ hA)
  have hq := hrt.qr _ m (SparseGp.sigmaB c) (by rw [hBB]; exact hM)
  have hs := hq.solve_eq (by rw [hBB]; exact hM) (Sum.elim (SparseGp.sqrtSolveY c) fun _ => 0)
  refine ⟨⟨u, c.Kuu, (rt.qr (SparseGp.sigmaB c)).getR, (rt.qr (SparseGp.sigmaB c)).getP,
    (rt.qr (SparseGp.sigmaB c)).solve (Sum.elim (SparseGp.sqrtSolveY c) fun _ => 0),
    (rt.qr (SparseGp.sigmaB c)).rank⟩, ?_, rfl, hKuu, hM, upperView_idem _, ?_, ?_⟩
  · rw [SparseGp.fitWith, hc]; rfl
  · rw [← hBB]; exact hq.gram
  · rw [← hBB]
    refine hs.2.trans ?_
    rw [SparseGp.sigmaB, transpose_fromRows, fromCols_mulVec_sumElim, hy]
    have h0 : (c.Kuu.sqrtTransposeᵀ *ᵥ fun _ => (0 : ℝ)) = 0 := by
      funext i; simp [mulVec, dotProduct]
    rw [h0, add_zero]
    rfl

theorem update_ok (g : SparseGp X κ) (hsym : ∀ x y, g.gp.cov x y = g.gp.cov y x) {rt : SparseRoutines}
    (hrt : rt.Meets) {u : Fin m → X} (features : Fin n → X) (targets : Marginal (Fin n))
    (hK : (sparseK g u).PosDef) (hA : (sparseA g u features targets.variance).PosDef)
    {f : SparseFit X m} {M : Matrix (Fin m) (Fin m) ℝ} {b : Fin m → ℝ} (hf : f.Holds g u M b) :
    ∃ f', g.update rt f features targets = .ok f' ∧
      f'.Holds g u (M + sparseGain g u features targets.variance) (b + sparseRhs g u features targets) := by
  obtain ⟨c, hc, hKuu, hT, hy, -, -⟩ := components_ok g hsym hrt u features targets hK hA
  set B := fromRows (f.R.submatrix id f.P.symm) (ldltsSqrtSolve c.A c.Kfu) with hB
  have hBB : Bᵀ * B = M + sparseGain g u features targets.variance := by
    rw [hB, transpose_fromRows, fromCols_mul_fromRows, hT]
    rw [show (f.R.submatrix id f.P.symm) = timesPermT f.R f.P from rfl, hf.gram]
    rfl
  have hM : (M + sparseGain g u features targets.variance).PosDef :=
    hf.posDef.add_posSemidef (sparseGain_psd g hsym u features _ hA)
  have hq := hrt.qr _ m B (by rw [hBB]; exact hM)
  have hs := hq.solve_eq (by rw [hBB]; exact hM)
    (Sum.elim (upperView f.R *ᵥ (f.information ∘ f.P)) (SparseGp.sqrtSolveY c))
  refine ⟨⟨u, f.trainCovariance, (rt.qr B).getR, (rt.qr B).getP,
    (rt.qr B).solve (Sum.elim (upperView f.R *ᵥ (f.information ∘ f.P)) (SparseGp.sqrtSolveY c)),
    (rt.qr B).rank⟩, ?_, rfl, hf.cov, hM, upperView_idem _, ?_, ?_⟩
  · rw [SparseGp.update, hf.features, hc]
    have hr : ¬ (rt.qr B).rank.1 < m := by rw [hs.1]; exact lt_irrefl _
    simp only [bind, Except.bind, pure, Except.pure, ← hB, if_neg hr]
  · rw [← hBB]; exact hq.gram
  · rw [← hBB]
    refine hs.2.trans ?_
    rw [hB, transpose_fromRows, fromCols_mulVec_sumElim, hy]
    congr 1
    have h1 : upperView f.R *ᵥ (f.information ∘ f.P) = timesPermT f.R f.P *ᵥ f.information := by
      rw [hf.upper]
      funext i
      simp only [mulVec, dotProduct, timesPermT, submatrix_apply, id, Function.comp]
      exact Fintype.sum_equiv f.P _ _ fun x => by simp
    rw [h1, show (f.R.submatrix id f.P.symm) = timesPermT f.R f.P from rfl, mulVec_mulVec, hf.gram, hf.info]

theorem SparseFit.Holds.predictJoint {g : SparseGp X κ} (hsym : ∀ x y, g.gp.cov x y = g.gp.cov y x)
    {u : Fin m → X} (hK : (sparseK g u).PosDef) {f : SparseFit X m} {M : Matrix (Fin m) (Fin m) ℝ}
    {b : Fin m → ℝ} (hf : f.Holds g u M b) {p : Type} (xs : p → X) :
    g.predictJoint f xs =
      ⟨fun j => (g.gp.covMat xs u *ᵥ (M⁻¹ *ᵥ b)) j + g.gp.mean (xs j),
        g.gp.covMat xs xs - sparseQ g u xs xs + g.gp.covMat xs u * (M⁻¹ * g.gp.covMat u xs)⟩ := by
  have hMu := PosDef.isUnit_det' hf.posDef
  have hinfo : f.information = M⁻¹ *ᵥ b := by
    rw [← hf.info, mulVec_mulVec, Matrix.nonsing_inv_mul _ hMu, one_mulVec]
  simp only [SparseGp.predictJoint, hf.features]
  rw [hf.cov.gram hK, qrSqrtSolve_gram hf.upper (by rw [hf.gram]; exact hMu), hf.gram,
    covMat_transpose g.gp hsym, hinfo, ← Matrix.mul_assoc _ (sparseK g u)⁻¹]
  rfl

theorem SparseGp.forms_agree (g : SparseGp X κ) (f : SparseFit X m) {p : Type} (xs : p → X) :
    (g.predictMarginal f xs).mean = (g.predictJoint f xs).mean ∧
    g.predictMean f xs = (g.predictJoint f xs).mean ∧
    ∀ j, (g.predictMarginal f xs).variance j = (g.predictJoint f xs).covariance j j :=
  ⟨rfl, rfl, fun _ => rfl⟩

end model

end Albatross

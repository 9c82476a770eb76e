import Verif.VariantSerialProps
import Verif.HandlersProps

/-! # C92: saving and loading distributions, datasets, covariance representations, fits and models -/

namespace Albatross

/-! ## Specification vocabulary -/

/-- The libraries do what they promise and a fresh block has the size asked for. -/
structure Io.Contract (io : Io) : Prop where
  zstd : io.zstd.Contract
  base64 : io.base64.Contract
  uninit : ∀ n, (io.uninit n).length = n

/-- A matrix with as many scalars as it should have, small enough for a string. -/
def Stored.Fits {α : Type} (rep : ScalarRep α) (m : Stored α) : Prop :=
  m.Valid ∧ rep.width * (m.rows * m.cols) ≤ stringMaxSize

/-- A distribution whose matrices fit. -/
def DistObject.Fits {α : Type} (rep : ScalarRep α) (d : DistObject α) : Prop :=
  d.mean.Fits rep ∧ d.covariance.Fits rep ∧ SMap.WF d.metadata

/-- A square matrix with a lower triangle that can be counted by a double and held by a string. -/
def Stored.LowerFits {α : Type} (rep : ScalarRep α) (m : Stored α) : Prop :=
  m.Valid ∧ m.rows = m.cols ∧ m.rows * (m.rows + 1) / 2 ≤ 2 ^ 53 ∧
    rep.width * (m.rows * (m.rows + 1) / 2) ≤ stringMaxSize

/-- What becomes of an `LDLT` in an archive: `s` was saved, and loaded over `old` to give `t`. -/
def LdltKept {α ι : Type} (b : Build) (old s t : LdltObject α ι) : Prop :=
  t.matrix.rows = s.matrix.rows ∧ t.matrix.cols = s.matrix.cols ∧
    (∀ i j, i < s.matrix.rows → j ≤ i → t.matrix.at b i j = s.matrix.at b i j) ∧
    t.transpositions = s.transpositions ∧ t.isInitialized = s.isInitialized ∧
    t.l1Norm = old.l1Norm ∧ t.sign = old.sign

/-! ## Eigen objects -/

theorem lowerTriangle_size {α : Type} {b : Build} {z : Zstd} {base64 : Codec} {rep : ScalarRep α} {text : Bool}
    {v : Stored α} {ar : DenseArchive} (hv : v.Valid) (hsq : v.rows ≤ v.cols)
    (h : saveLowerTriangle b z base64 rep text v = .ok ar) : ar.rows * ar.cols = v.rows * (v.rows + 1) / 2 := by
  obtain ⟨lines, hdata, hlen, hl, -⟩ := lowerTriangleData_spec b hv hsq
  have hflat : lines.flatten.length = v.rows * (v.rows + 1) / 2 := by
    have := two_mul_flatten_length lines 0 (by simpa using hl)
    rw [hlen] at this
    simp only [Nat.mul_zero, Nat.add_zero] at this
    omega
  unfold saveLowerTriangle at h
  rw [hdata, except_ok_bind] at h
  have := Except.ok.inj h
  subst this
  simpa [saveDense] using hflat

section
variable {io : Io} (hio : io.Contract)
include hio

theorem dense_keeps {α : Type} {rep : ScalarRep α} (hr : rep.Contract) {m : Stored α} (hm : m.Fits rep) :
    (denseSerial io rep).Keeps m := by
  refine ⟨_, rfl, fun old => ?_⟩
  exact C58_dense hio.zstd io.gzip hio.base64 hr io.b io.text _ m hm.1 hm.2 (hio.uninit _)

/-- **C92**: transpositions and permutations survive saving and loading. -/
theorem C92_permutation {ι : Type} {rep : ScalarRep ι} (hr : rep.Contract) (p : Stored ι) (hp : p.Fits rep) :
    (objectSerial io (indicesSteps io rep)).Keeps p :=
  object_keeps io p _ (by simp [indicesSteps, Step.Keeps, dense_keeps hio hr hp]) fun _ => rfl

/-- **C92**: diagonal matrices survive saving and loading. -/
theorem C92_diagonal {α : Type} {rep : ScalarRep α} (hr : rep.Contract) (p : Stored α) (hp : p.Fits rep) :
    (objectSerial io (diagonalSteps io rep)).Keeps p :=
  object_keeps io p _ (by simp [diagonalSteps, Step.Keeps, dense_keeps hio hr hp]) fun _ => rfl

/-- **C92**, for the factorisation: its factors, its transpositions and whether it was computed survive; the norm
and the sign are those of the object loaded over. -/
theorem C92_ldlt_partial {α ι : Type} {rep : ScalarRep α} (hr : rep.Contract) {irep : ScalarRep ι}
    (hi : irep.Contract) (junk : Nat → Nat → α) (s : LdltObject α ι) (hm : s.matrix.LowerFits rep)
    (ht : s.transpositions.Fits irep) :
    ∃ f, (objectSerial io (ldltSteps io rep irep junk)).save s = .ok (f, s) ∧
      ∀ old, ∃ t, (objectSerial io (ldltSteps io rep irep junk)).load old f = .ok t ∧ LdltKept io.b old s t := by
  obtain ⟨h1, h2, h3, h4⟩ := hm
  obtain ⟨ft, st, lt⟩ := C92_permutation hio hi s.transpositions ht
  obtain ⟨ar, w, sm, lm, wr, wc, we⟩ := C58_lower_triangle hio.zstd io.gzip hio.base64 hr io.b io.text
    (io.uninit (rep.width * (s.matrix.rows * (s.matrix.rows + 1) / 2))) junk s.matrix h1 h2 h3 h4 (hio.uninit _)
  have hsize := lowerTriangle_size h1 h2.le sm
  refine ⟨.node [("lower_triangle", .dense ar), ("transpositions", ft), ("is_initialized", .flag s.isInitialized)],
    ?_, fun old => ⟨{ old with matrix := w, transpositions := s.transpositions, isInitialized := s.isInitialized },
      ?_, ⟨wr, wc, we, rfl, rfl, rfl, rfl⟩⟩⟩
  · simp only [ldltSteps]
    generalize objectSerial io (indicesSteps io irep) = perm at *
    simp only [objectSerial, saveSteps, lowerTriangleSerial, sm, st, except_ok_bind, flagSerial, except_pure]
  · have hl : (lowerTriangleSerial io rep junk).load old.matrix (.dense ar) = .ok w := by
      simp only [lowerTriangleSerial]; rw [hsize]; exact lm
    simp only [ldltSteps]
    generalize objectSerial io (indicesSteps io irep) = perm at *
    simp only [objectSerial, loadSteps, membersOf, except_ok_bind, Reader.start, next_cons, List.nil_append,
      List.cons_append, hl, lt, flagSerial, except_pure]

/-- **C92**: the claim that the factorisation survives is false for the norm of the matrix, which is not saved:
`rcond()` and `l1_norm()` of a loaded factorisation use the norm of whatever the object was before. -/
theorem C92_ldlt_norm_false {α ι : Type} {rep : ScalarRep α} (hr : rep.Contract) {irep : ScalarRep ι}
    (hi : irep.Contract) (junk : Nat → Nat → α) (x y : α) (hxy : x ≠ y) :
    ¬ ∀ (s : LdltObject α ι), s.matrix.LowerFits rep → s.transpositions.Fits irep → s.isInitialized = true →
      ∀ f t old, (objectSerial io (ldltSteps io rep irep junk)).save s = .ok (f, s) →
        (objectSerial io (ldltSteps io rep irep junk)).load old f = .ok t → t.norm io.b = s.norm io.b := by
  intro h
  let s : LdltObject α ι := ⟨⟨0, 0, []⟩, ⟨0, 1, []⟩, true, x, 0⟩
  have hm : s.matrix.LowerFits rep := ⟨rfl, rfl, by simp [s], by simp [s]⟩
  have ht : s.transpositions.Fits irep := ⟨rfl, by simp [s]⟩
  obtain ⟨f, h1, h2⟩ := C92_ldlt_partial hio hr hi junk s hm ht
  obtain ⟨t, h3, -, -, -, -, h4, h5, -⟩ := h2 { s with l1Norm := y }
  have := h s hm ht rfl f t _ h1 h3
  unfold LdltObject.norm at this
  rw [h4, h5] at this
  simp only [s, albatrossAssert_true, except_ok_bind, except_pure, Except.ok.injEq] at this
  exact hxy this.symm

/-! ## Distributions, datasets and linear combinations -/

omit hio in
theorem stringMap_keeps (m : StringMap) (h : SMap.WF m) : (stringMapSerial io).Keeps m :=
  map_keeps io _ _ _ m h (fun _ _ => string_keeps io _) fun _ _ => string_keeps io _

/-- **C92**: marginal distributions survive saving and loading. -/
theorem C92_marginal {α : Type} {rep : ScalarRep α} (hr : rep.Contract) (d : DistObject α) (hd : d.Fits rep) :
    (marginalSerial io rep).Keeps d :=
  object_keeps io d _ (by simp [distSteps, Step.Keeps, dense_keeps hio hr hd.1, C92_diagonal hio hr _ hd.2.1,
    stringMap_keeps _ hd.2.2]) fun _ => rfl

/-- **C92**: joint distributions survive saving and loading. -/
theorem C92_joint {α : Type} {rep : ScalarRep α} (hr : rep.Contract) (d : DistObject α) (hd : d.Fits rep) :
    (jointSerial io rep).Keeps d :=
  object_keeps io d _ (by simp [distSteps, Step.Keeps, dense_keeps hio hr hd.1, dense_keeps hio hr hd.2.1,
    stringMap_keeps _ hd.2.2]) fun _ => rfl

/-- **C92**: datasets survive saving and loading, if their features do. -/
theorem C92_dataset {X α : Type} {rep : ScalarRep α} (hr : rep.Contract) (c : Serial X) (init : X)
    (d : DatasetObject X α) (hx : ∀ x ∈ d.features, c.Keeps x) (hd : d.targets.Fits rep) (hm : SMap.WF d.metadata) :
    (objectSerial io (datasetSteps io rep c init)).Keeps d :=
  object_keeps io d _ (by simp [datasetSteps, Step.Keeps, vector_keeps io c init _ hx, C92_marginal hio hr _ hd,
    stringMap_keeps _ hm]) fun _ => rfl

/-- **C92**: linear combinations survive saving and loading, if their features do. -/
theorem C92_combination {X α : Type} {rep : ScalarRep α} (hr : rep.Contract) (c : Serial X) (init : X)
    (d : ComboObject X α) (hx : ∀ x ∈ d.values, c.Keeps x) (hd : d.coefficients.Fits rep) :
    (objectSerial io (comboSteps io rep c init)).Keeps d :=
  object_keeps io d _ (by simp [comboSteps, Step.Keeps, vector_keeps io c init _ hx, dense_keeps hio hr hd])
    fun _ => rfl

/-! ## Covariance representations and fits -/

/-- **C92**: block matrices survive saving and loading, if their factorisations do. -/
theorem C92_block {S L α : Type} {rep : ScalarRep α} (hr : rep.Contract) (solver : Serial S) (ldlt : Serial L)
    (d : BlockObject S L α) (hA : solver.Keeps d.A) (hB : d.aiB.Fits rep) (hS : ldlt.Keeps d.schur) :
    (objectSerial io (blockSteps io rep solver ldlt)).Keeps d :=
  object_keeps io d _ (by simp [blockSteps, Step.Keeps, hA, hS, dense_keeps hio hr hB]) fun _ => rfl

/-- **C92**: explained covariances survive saving and loading, if their factorisation does. -/
theorem C92_explained {L α : Type} {rep : ScalarRep α} (hr : rep.Contract) (ldlt : Serial L)
    (d : ExplainedObject L α) (hL : ldlt.Keeps d.outer) (hI : d.inner.Fits rep) :
    (objectSerial io (explainedSteps io rep ldlt)).Keeps d :=
  object_keeps io d _ (by simp [explainedSteps, Step.Keeps, hL, dense_keeps hio hr hI]) fun _ => rfl

/-- **C92**: direct inverses survive saving and loading. -/
theorem C92_direct {α : Type} {rep : ScalarRep α} (hr : rep.Contract) (d : Stored α) (hd : d.Fits rep) :
    (objectSerial io (directSteps io rep)).Keeps d :=
  object_keeps io d _ (by simp [directSteps, Step.Keeps, dense_keeps hio hr hd]) fun _ => rfl

/-- **C92**: the fit of a Gaussian process survives saving and loading, if its covariance representation and its
features do. -/
theorem C92_gp_fit {C X α : Type} {rep : ScalarRep α} (hr : rep.Contract) (cov : Serial C) (c : Serial X) (init : X)
    (d : GpFitObject C X α) (hx : ∀ x ∈ d.features, c.Keeps x) (hC : cov.Keeps d.covariance)
    (hI : d.information.Fits rep) : (objectSerial io (gpFitSteps io rep cov c init)).Keeps d :=
  object_keeps io d _ (by simp [gpFitSteps, Step.Keeps, hC, vector_keeps io c init _ hx, dense_keeps hio hr hI])
    fun _ => rfl

/-- **C92**, for the fit of a Gaussian process with an `LDLT`: features and information survive, and of the
factorisation what `LdltKept` says. -/
theorem C92_gp_fit_ldlt_partial {X α ι : Type} {rep : ScalarRep α} (hr : rep.Contract) {irep : ScalarRep ι}
    (hi : irep.Contract) (junk : Nat → Nat → α) (c : Serial X) (init : X) (d : GpFitObject (LdltObject α ι) X α)
    (hx : ∀ x ∈ d.features, c.Keeps x) (hm : d.covariance.matrix.LowerFits rep)
    (ht : d.covariance.transpositions.Fits irep) (hI : d.information.Fits rep) :
    ∃ f, (objectSerial io (gpFitSteps io rep (objectSerial io (ldltSteps io rep irep junk)) c init)).save d = .ok (f, d) ∧
      ∀ old, ∃ t, (objectSerial io (gpFitSteps io rep (objectSerial io (ldltSteps io rep irep junk)) c init)).load old f =
          .ok t ∧
        t.features = d.features ∧ t.information = d.information ∧
          LdltKept io.b old.covariance d.covariance t.covariance := by
  obtain ⟨fc, sc, lc⟩ := C92_ldlt_partial hio hr hi junk d.covariance hm ht
  obtain ⟨fi, si, li⟩ := dense_keeps hio hr hI
  obtain ⟨fx, sx, lx⟩ := vector_keeps io c init _ hx
  refine ⟨.node [("information", fi), ("train_ldlt", fc), ("train_features", fx)], ?_, fun old => ?_⟩
  · simp only [gpFitSteps]
    generalize objectSerial io (ldltSteps io rep irep junk) = cov at *
    simp only [objectSerial, saveSteps, si, sc, sx, except_ok_bind, except_pure]
  · obtain ⟨t, e, k⟩ := lc old.covariance
    refine ⟨{ features := d.features, covariance := t, information := d.information }, ?_, rfl, rfl, k⟩
    simp only [gpFitSteps]
    generalize objectSerial io (ldltSteps io rep irep junk) = cov at *
    simp only [objectSerial, loadSteps, membersOf, except_ok_bind, Reader.start, next_cons, List.nil_append,
      List.cons_append, li, e, lx, except_pure]

/-- **C92**: the fit of a sparse Gaussian process survives saving and loading with a format version above 1. -/
theorem C92_sparse_fit {L X α ι : Type} {rep : ScalarRep α} (hr : rep.Contract) {irep : ScalarRep ι}
    (hi : irep.Contract) (cov : Serial L) (c : Serial X) (init : X) (version : Nat) (hv : 1 < version)
    (d : SparseFitObject L X α ι) (hx : ∀ x ∈ d.features, c.Keeps x) (hC : cov.Keeps d.covariance)
    (hI : d.information.Fits rep) (hR : d.R.Fits rep) (hP : d.P.Fits irep) :
    (objectSerial io (sparseFitSteps io version rep irep cov c init)).Keeps d :=
  object_keeps io d _ (by
    simp [sparseFitSteps, hv, Step.Keeps, hC, vector_keeps io c init _ hx, dense_keeps hio hr hI,
      dense_keeps hio hr hR, C92_permutation hio hi _ hP, int_keeps]) fun old => by
    simp [sparseFitSteps, hv, transfer]

/-- **C92**, for the version the fit of a sparse Gaussian process has: everything but the numerical rank survives;
the rank becomes −1 in the loaded fit, and also in the fit that is saved. -/
theorem C92_sparse_fit_partial {L X α ι : Type} {rep : ScalarRep α} (hr : rep.Contract) {irep : ScalarRep ι}
    (hi : irep.Contract) (cov : Serial L) (c : Serial X) (init : X) (d : SparseFitObject L X α ι)
    (hx : ∀ x ∈ d.features, c.Keeps x) (hC : cov.Keeps d.covariance)
    (hI : d.information.Fits rep) (hR : d.R.Fits rep) (hP : d.P.Fits irep) :
    ∃ f, (objectSerial io (sparseFitSteps io (classVersion sparseFitDeclared) rep irep cov c init)).save d =
        .ok (f, { d with numericalRank := -1 }) ∧
      ∀ old, (objectSerial io (sparseFitSteps io (classVersion sparseFitDeclared) rep irep cov c init)).load old f =
        .ok { d with numericalRank := -1 } := by
  obtain ⟨fc, sc, lc⟩ := hC
  obtain ⟨fi, si, li⟩ := dense_keeps hio hr hI
  obtain ⟨fx, sx, lx⟩ := vector_keeps io c init _ hx
  obtain ⟨fr, sr, lr⟩ := dense_keeps hio hr hR
  obtain ⟨fp, sp, lp⟩ := C92_permutation hio hi _ hP
  refine ⟨.node [("information", fi), ("train_covariance", fc), ("train_features", fx), ("R", fr), ("P", fp)],
    ?_, fun old => ?_⟩
  · simp only [sparseFitSteps, classVersion, sparseFitDeclared, Option.getD_none, Nat.not_lt_zero, if_false,
      List.cons_append, List.nil_append]
    generalize objectSerial io (indicesSteps io irep) = perm at *
    simp only [objectSerial, saveSteps, si, sc, sx, sr, sp, except_ok_bind, except_pure]
  · simp only [sparseFitSteps, classVersion, sparseFitDeclared, Option.getD_none, Nat.not_lt_zero, if_false,
      List.cons_append, List.nil_append]
    generalize objectSerial io (indicesSteps io irep) = perm at *
    simp only [objectSerial, loadSteps, membersOf, except_ok_bind, Reader.start, next_cons, List.nil_append,
      List.cons_append, li, lc, lx, lr, lp, except_pure]

/-- **C92**: the claim that saving leaves the fit of a sparse Gaussian process as it is, is false. -/
theorem C92_sparse_fit_false {L X α ι : Type} {rep : ScalarRep α} (hr : rep.Contract) {irep : ScalarRep ι}
    (hi : irep.Contract) (cov : Serial L) (c : Serial X) (init : X) (l : L) (hl : cov.Keeps l) :
    ¬ ∀ (d : SparseFitObject L X α ι), (∀ x ∈ d.features, c.Keeps x) → cov.Keeps d.covariance →
      d.information.Fits rep → d.R.Fits rep → d.P.Fits irep →
      (objectSerial io (sparseFitSteps io (classVersion sparseFitDeclared) rep irep cov c init)).Keeps d := by
  intro h
  let d : SparseFitObject L X α ι := ⟨[], l, ⟨0, 0, []⟩, ⟨0, 1, []⟩, ⟨0, 1, []⟩, 0⟩
  have h0 : ∀ x ∈ d.features, c.Keeps x := by simp [d]
  have h1 : d.information.Fits rep := ⟨rfl, by simp [d]⟩
  have h2 : d.R.Fits rep := ⟨rfl, by simp [d]⟩
  have h3 : d.P.Fits irep := ⟨rfl, by simp [d]⟩
  obtain ⟨f, e, -⟩ := h d h0 hl h1 h2 h3
  obtain ⟨f', e', -⟩ := C92_sparse_fit_partial hio hr hi cov c init d h0 hl h1 h2 h3
  rw [e'] at e
  have : (-1 : Int) = 0 := congrArg (fun r : Except Fault (Field × SparseFitObject L X α ι) => match r with
    | .ok (_, s) => s.numericalRank
    | .error _ => 0) e
  exact absurd this (by norm_num)

/-- **C92**: the coefficients of a least squares model survive saving and loading. -/
theorem C92_least_squares {α : Type} {rep : ScalarRep α} (hr : rep.Contract) (d : Stored α) (hd : d.Fits rep) :
    (objectSerial io (leastSquaresSteps io rep)).Keeps d :=
  object_keeps io d _ (by simp [leastSquaresSteps, Step.Keeps, dense_keeps hio hr hd]) fun _ => rfl

end

/-- **C92**: a model together with its fit survives saving and loading, if both do. -/
theorem C92_fit_model {M F : Type} (io : Io) (model : Serial M) (fit : Serial F) (m : M) (f : F) (hm : model.Keeps m)
    (hf : fit.Keeps f) : (objectSerial io (fitModelSteps model fit)).Keeps (m, f) :=
  object_keeps io (m, f) _ (by simp [fitModelSteps, Step.Keeps, hm, hf]) fun _ => rfl

/-- **C92**: saving a model with its fit leaves both as saving them leaves them, so a fit that saving changes is
changed in the fitted model too. -/
theorem C92_fit_model_after {M F : Type} (io : Io) (model : Serial M) (fit : Serial F) (m m' : M) (f f' : F)
    (x y : Field) (hm : model.save m = .ok (x, m')) (hf : fit.save f = .ok (y, f')) :
    (objectSerial io (fitModelSteps model fit)).save (m, f) = .ok (.node [("model", x), ("fit", y)], (m', f')) := by
  simp only [objectSerial, fitModelSteps, saveSteps, hm, hf, except_ok_bind, except_pure]

example : (natSerial (plainIo true .debug)).save 3 = .ok (.nat 3, 3) ∧
    (objectSerial (plainIo true .debug) [.assign fun _ : Int => -1]).save 7 = .ok (.node [], -1) := ⟨rfl, rfl⟩

/-- **C92**: loading a vector gives as many elements as the archive has, each loaded over the element that was at
its place before, or over a default constructed one where there was none. -/
theorem C92_vector_elements {α : Type} (io : Io) (c : Serial α) (init : α) (old xs : List α)
    (ms : List (String × Field)) :
    (vectorSerial io c init).load old (.node ms) = .ok xs ↔
      ∃ h : xs.length = ms.length, ∀ (i : Nat) (hi : i < xs.length),
        c.load (old.getD i init) (ms[i]'(h ▸ hi)).2 = .ok xs[i] := by
  have key : ∀ (ms : List (String × Field)) (xs : List α) (k : Nat), loadElements c init k old ms = .ok xs ↔
      ∃ h : xs.length = ms.length, ∀ (i : Nat) (hi : i < xs.length),
        c.load (old.getD (k + i) init) (ms[i]'(h ▸ hi)).2 = .ok xs[i] := by
    intro ms
    induction ms with
    | nil =>
      intro xs k
      rw [loadElements]
      constructor
      · intro h
        obtain rfl : [] = xs := by simpa using h
        exact ⟨rfl, fun i hi => absurd hi (by simp)⟩
      · rintro ⟨h, -⟩
        rw [List.length_nil] at h
        rw [List.eq_nil_of_length_eq_zero h]
    | cons f fs ih =>
      intro xs k
      rw [loadElements]
      simp only [except_bind_eq_ok, except_pure, ih]
      constructor
      · rintro ⟨x, hx, ys, ⟨hl, hy⟩, e⟩
        obtain rfl : x :: ys = xs := by simpa using e
        refine ⟨by simp [hl], fun i hi => ?_⟩
        cases i with
        | zero => simpa using hx
        | succ i =>
          have := hy i (by simpa using hi)
          rw [show k + 1 + i = k + (i + 1) by omega] at this
          simpa using this
      · rintro ⟨hl, h⟩
        cases xs with
        | nil => simp at hl
        | cons x ys =>
          refine ⟨x, h 0 (Nat.succ_pos _), ys, ⟨by simpa using hl, fun i hi => ?_⟩, rfl⟩
          have := h (i + 1) (by simpa using hi)
          rw [show k + (i + 1) = k + 1 + i by omega] at this
          simpa using this
  have := key ms xs 0
  simpa only [vectorSerial, membersOf, except_ok_bind, Nat.zero_add] using this

/-- **C92**: reading past the last value of a binary archive throws; a text archive still finds a value by its name
and throws if there is none. -/
theorem C92_archive_end (text : Bool) (name : String) (before : List (String × Field))
    (h : text = true → ∀ m ∈ before, m.1 ≠ name) : Reader.next text name ⟨before, []⟩ = .error .thrown := by
  have aux : ∀ l : List (String × Field), (∀ m ∈ l, m.1 ≠ name) → splitAtName name l = none := by
    intro l
    induction l with
    | nil => intro _; rfl
    | cons m l ih =>
      intro h
      rw [splitAtName, if_neg (h m (by simp)), ih fun m hm => h m (by simp [hm])]
      rfl
  cases text with
  | false => simp [Reader.next]
  | true => simp [Reader.next, aux before (h rfl)]

example : ∀ m ∈ [("value", Field.nat 3)], m.1 ≠ "prior" := by decide

/-! ## RANSAC -/

/-- Its maps are maps. -/
def IterationObject.WF {κ : Type} [LT κ] (i : IterationObject κ) : Prop := SMap.WF i.inliers ∧ SMap.WF i.outliers

/-- **C92**: the record of a RANSAC iteration survives saving and loading, if the group keys do. -/
theorem C92_iteration {κ : Type} [LinearOrder κ] (io : Io) (k : Serial κ) (init : κ) (hk : ∀ x, k.Keeps x)
    (i : IterationObject κ) (h : i.WF) : (objectSerial io (iterationSteps io k init)).Keeps i :=
  object_keeps io i _ (by
    simp [iterationSteps, Step.Keeps, vector_keeps io k init i.candidates fun x _ => hk x, dbl_keeps,
      map_keeps io k (dblSerial io) (init, .fin 0) i.inliers h.1 (fun _ _ => hk _) fun _ _ => dbl_keeps io _,
      map_keeps io k (dblSerial io) (init, .fin 0) i.outliers h.2 (fun _ _ => hk _) fun _ _ => dbl_keeps io _])
    fun _ => rfl

/-- **C92**: the output of RANSAC survives saving and loading. -/
theorem C92_ransac_output {κ : Type} [LinearOrder κ] (io : Io) (k : Serial κ) (init : κ) (hk : ∀ x, k.Keeps x)
    (o : RansacOutputObject κ) (hb : o.best.WF) (hi : ∀ i ∈ o.iterations, i.WF) :
    (objectSerial io (ransacOutputSteps io k init)).Keeps o :=
  object_keeps io o _ (by
    simp [ransacOutputSteps, Step.Keeps, int_keeps, C92_iteration io k init hk _ hb,
      vector_keeps io _ ⟨[], [], [], .nan⟩ o.iterations fun i h => C92_iteration io k init hk i (hi i h)])
    fun _ => rfl

/-- **C92**: the fit of a RANSAC model survives saving and loading, if what it holds does. -/
theorem C92_ransac_fit {V κ : Type} [LinearOrder κ] (io : Io) (fit : Serial V) (k : Serial κ) (init : κ)
    (hk : ∀ x, k.Keeps x) (v : V) (hv : fit.Keeps v) (o : RansacOutputObject κ) (hb : o.best.WF)
    (hi : ∀ i ∈ o.iterations, i.WF) : (objectSerial io (ransacFitSteps io fit k init)).Keeps (v, o) :=
  object_keeps io (v, o) _ (by
    simp [ransacFitSteps, Step.Keeps, hv, C92_ransac_output io k init hk o hb hi]) fun _ => rfl

/-! ## Models -/

theorem setAll_own (b : Build) (s t : Handler) (hs : s.Separate) (ht : t.Separate)
    (hne : ∀ k ∈ t.getParams.keys, k ≠ "") (hkeys : s.getParams.keys = t.getParams.keys) :
    ∃ h, t.setAll b s.getParams = .ok h ∧ h.Separate ∧ h.getParams = s.getParams := by
  have hw := Handler.getParams_wf hs.proper
  obtain ⟨h, e1, e2, e3⟩ := Handler.C25_set_params_partial b t ht s.getParams hw hne (by rw [hkeys]; exact fun _ h => h)
  refine ⟨h, e1, e2, SMap.ext (Handler.getParams_wf e2.proper) hw fun k => ?_⟩
  rw [e3]
  cases hf : s.getParams.find? k with
  | some p => rfl
  | none =>
    have : k ∉ t.getParams.keys := by rw [← hkeys, SMap.mem_keys, hf]; simp
    rw [SMap.mem_keys] at this
    simpa using this

/-- **C92**, for a model: loaded into a model with the same parameter names it gives its parameters and its
insights; the name and everything else are those of the model loaded into. -/
theorem C92_model_partial {T : Type} (io : Io) (s t : ModelObject T) (hs : s.handler.Separate)
    (ht : t.handler.Separate) (hne : ∀ k ∈ t.handler.getParams.keys, k ≠ "")
    (hkeys : s.handler.getParams.keys = t.handler.getParams.keys) (hi : SMap.WF s.insights) :
    ∃ f u, (modelSerial io).save s = .ok (f, s) ∧ (modelSerial io).load t f = .ok u ∧
      u.handler.getParams = s.handler.getParams ∧ u.insights = s.insights ∧ u.name = t.name ∧ u.rest = t.rest := by
  obtain ⟨fp, sp, lp⟩ := C91_store io _ (Handler.getParams_wf hs.proper)
  obtain ⟨fi, si, li⟩ := stringMap_keeps (io := io) _ hi
  obtain ⟨h, e1, -, e3⟩ := setAll_own io.b s.handler t.handler hs ht hne hkeys
  refine ⟨.node [("params", fp), ("insights", fi)], { t with handler := h, insights := s.insights }, ?_, ?_, e3, rfl,
    rfl, rfl⟩
  · simp only [modelSerial, sp, si, except_ok_bind, except_pure]
  · simp only [modelSerial, membersOf, except_ok_bind, Reader.start, next_cons, List.nil_append, List.cons_append,
      lp, li, e1, except_pure]

/-- **C92**, for a Gaussian process: in addition its name survives, with the version it has. -/
theorem C92_gp_partial {T : Type} (io : Io) (s t : ModelObject T) (hs : s.handler.Separate)
    (ht : t.handler.Separate) (hne : ∀ k ∈ t.handler.getParams.keys, k ≠ "")
    (hkeys : s.handler.getParams.keys = t.handler.getParams.keys) (hi : SMap.WF s.insights) :
    ∃ f u, (gpSerial io (classVersion gpDeclared)).save s = .ok (f, s) ∧
      (gpSerial io (classVersion gpDeclared)).load t f = .ok u ∧
      u.handler.getParams = s.handler.getParams ∧ u.insights = s.insights ∧ u.name = s.name ∧ u.rest = t.rest := by
  obtain ⟨fp, sp, lp⟩ := C91_store io _ (Handler.getParams_wf hs.proper)
  obtain ⟨fi, si, li⟩ := stringMap_keeps (io := io) _ hi
  obtain ⟨h, e1, -, e3⟩ := setAll_own io.b s.handler t.handler hs ht hne hkeys
  refine ⟨.node [("name", .name s.name), ("params", fp), ("insights", fi)],
    { t with name := s.name, handler := h, insights := s.insights }, ?_, ?_, e3, rfl, rfl, rfl⟩
  · simp only [gpSerial, sp, si, stringSerial, except_ok_bind, except_pure]
  · simp only [gpSerial, classVersion, gpDeclared, Option.getD_some, Nat.zero_lt_one, if_true, membersOf,
      except_ok_bind, Reader.start, readName_cons, next_cons, List.nil_append, List.cons_append, lp, li, e1,
      except_pure]

/-- **C92**: an archive with a parameter that the model does not have stops a debug build with an assertion. -/
theorem C92_unknown_parameter {T : Type} (io : Io) (hb : io.b = .debug) (s t : ModelObject T)
    (hs : s.handler.Separate) (ht : t.handler.Separate) (hi : SMap.WF s.insights)
    (hk : ∃ k ∈ s.handler.getParams.keys, k ∉ t.handler.getParams.keys) :
    ∃ f, (modelSerial io).save s = .ok (f, s) ∧ (modelSerial io).load t f = .error .assertFail := by
  obtain ⟨fp, sp, lp⟩ := C91_store io _ (Handler.getParams_wf hs.proper)
  obtain ⟨fi, si, li⟩ := stringMap_keeps (io := io) _ hi
  have he := (C26_set_params .debug s.handler.getParams t.handler.getParams (Handler.getParams_wf hs.proper)
    (Handler.getParams_wf ht.proper)).2 hk
  refine ⟨.node [("params", fp), ("insights", fi)], ?_, ?_⟩
  · simp only [modelSerial, sp, si, except_ok_bind, except_pure]
  · simp only [modelSerial, membersOf, except_ok_bind, Reader.start, next_cons, lp, Handler.setAll, hb, he]
    rfl

/-- **C92**: the claim that a model survives is false for whatever it has beyond parameters and insights: a RANSAC
model loaded from an archive has the thresholds of the model it was loaded into. -/
theorem C92_model_false (io : Io) :
    ¬ ∀ (s t : ModelObject Nat), s.handler = t.handler → ∀ f u, (modelSerial io).save s = .ok (f, s) →
      (modelSerial io).load t f = .ok u → u.rest = s.rest := by
  intro h
  let s : ModelObject Nat := ⟨.store [], [], "ransac", 20⟩
  obtain ⟨f, u, e1, e2, -, -, -, e3⟩ := C92_model_partial io s { s with rest := 0 } (by simp [s, Handler.Separate])
    (by simp [s, Handler.Separate]) (by simp [s, Handler.getParams, SMap.keys]) rfl (by simp [s])
  have := h s { s with rest := 0 } rfl f u e1 e2
  rw [e3] at this
  exact absurd this (by simp [s])

/-! ## Thread pools and metrics -/

/-- **C92**: a thread pool of two or more threads, and no thread pool, survive saving and loading. -/
theorem C92_pool_partial (p : Option Nat) (h : ∀ n, p = some n → 2 ≤ n) : loadThreadPool (saveThreadPool p) = p := by
  cases p with
  | none => rfl
  | some n =>
    have := h n rfl
    show loadThreadPool n = some n
    unfold loadThreadPool
    rw [if_neg (by omega)]

/-- **C92**: the claim is false for a pool of one thread, which comes back as no pool. -/
theorem C92_pool_false : ¬ ∀ n, 1 ≤ n → loadThreadPool (saveThreadPool (some n)) = some n := by
  intro h
  simpa [loadThreadPool, saveThreadPool] using h 1 le_rfl

/-- **C92**: what is saved is the number of threads: none for no pool, and never one for another. -/
theorem C92_pool_count (n : Nat) : saveThreadPool none = 0 ∧ saveThreadPool (some n) = n := ⟨rfl, rfl⟩

/-- **C92**: nothing is saved for a metric, and loading one leaves it as it was. -/
theorem C92_metric {σ : Type} (io : Io) (s old : σ) :
    (objectSerial io (metricSteps σ)).save s = .ok (.node [], s) ∧
      (objectSerial io (metricSteps σ)).load old (.node []) = .ok old := ⟨rfl, rfl⟩

/-! ## Examples -/

theorem plainIo_contract (text : Bool) (b : Build) : (plainIo text b).Contract :=
  ⟨storedZstd_contract, fun _ => rfl, fun n => by simp [plainIo]⟩

theorem smallFits (m : Stored UInt8) (h : m.Valid) (hs : m.rows * m.cols ≤ 100) : m.Fits byteRep :=
  ⟨h, by unfold stringMaxSize; simp only [byteRep, Nat.one_mul]; omega⟩

/-- A dataset of two features. -/
def twoPoints : DatasetObject Int UInt8 :=
  ⟨[4, -5], ⟨⟨2, 1, [1, 2]⟩, ⟨2, 1, [3, 4]⟩, [("unit", "m")]⟩, []⟩

example : (objectSerial (plainIo true .debug) (datasetSteps (plainIo true .debug) byteRep
    (intSerial (plainIo true .debug)) 0)).Keeps twoPoints :=
  C92_dataset (plainIo_contract _ _) byteRep_contract _ _ _ (fun _ _ => int_keeps _ _)
    ⟨smallFits _ rfl (by simp [twoPoints]), smallFits _ rfl (by simp [twoPoints]), by simp [twoPoints, SMap.WF]⟩
    (by simp [twoPoints])

example : ¬ ∀ (s : LdltObject UInt8 UInt8), s.matrix.LowerFits byteRep → s.transpositions.Fits byteRep →
    s.isInitialized = true → ∀ f t old,
      (objectSerial (plainIo true .debug) (ldltSteps (plainIo true .debug) byteRep byteRep fun _ _ => 0)).save s =
        .ok (f, s) →
      (objectSerial (plainIo true .debug) (ldltSteps (plainIo true .debug) byteRep byteRep fun _ _ => 0)).load old f =
        .ok t → t.norm .debug = s.norm .debug :=
  C92_ldlt_norm_false (plainIo_contract true .debug) byteRep_contract byteRep_contract _ 0 1 (by decide)

example : ∃ f, (objectSerial (plainIo false .ndebug) (sparseFitSteps (plainIo false .ndebug) 0 byteRep byteRep
    (intSerial (plainIo false .ndebug)) (intSerial (plainIo false .ndebug)) 0)).save
      ⟨[1, 2], 7, ⟨1, 1, [5]⟩, ⟨1, 1, [0]⟩, ⟨1, 1, [6]⟩, 1⟩ =
        .ok (f, ⟨[1, 2], 7, ⟨1, 1, [5]⟩, ⟨1, 1, [0]⟩, ⟨1, 1, [6]⟩, -1⟩) := by
  obtain ⟨f, h, -⟩ := C92_sparse_fit_partial (plainIo_contract false .ndebug) byteRep_contract byteRep_contract
    (intSerial (plainIo false .ndebug)) (intSerial (plainIo false .ndebug)) 0
    ⟨[1, 2], 7, ⟨1, 1, [5]⟩, ⟨1, 1, [0]⟩, ⟨1, 1, [6]⟩, 1⟩ (fun _ _ => int_keeps _ _) (int_keeps _ _)
    (smallFits _ rfl (by simp)) (smallFits _ rfl (by simp)) (smallFits _ rfl (by simp))
  exact ⟨f, h⟩

example : ∃ f u, (modelSerial (plainIo true .debug)).save
      (⟨.store [("sigma", ⟨.fin 3, .positive⟩)], [("fit", "good")], "a", 20⟩ : ModelObject Nat) =
        .ok (f, ⟨.store [("sigma", ⟨.fin 3, .positive⟩)], [("fit", "good")], "a", 20⟩) ∧
    (modelSerial (plainIo true .debug)).load
      (⟨.store [("sigma", ⟨.fin 1, .fixed⟩)], [], "b", 10⟩ : ModelObject Nat) f = .ok u ∧
      u.insights = [("fit", "good")] ∧ u.rest = 10 := by
  obtain ⟨f, u, e1, e2, -, e3, -, e4⟩ := C92_model_partial (plainIo true .debug)
    (⟨.store [("sigma", ⟨.fin 3, .positive⟩)], [("fit", "good")], "a", 20⟩ : ModelObject Nat)
    ⟨.store [("sigma", ⟨.fin 1, .fixed⟩)], [], "b", 10⟩ (by simp [Handler.Separate, SMap.WF])
    (by simp [Handler.Separate, SMap.WF]) (by simp [Handler.getParams, SMap.keys])
    (by simp [Handler.getParams, SMap.keys]) (by simp [SMap.WF])
  exact ⟨f, u, e1, e2, e3, e4⟩

end Albatross

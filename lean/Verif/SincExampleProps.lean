import Verif.SincExample
import Verif.WholeModelProps
import Verif.GpProps
import Verif.CovComposeProps
import Verif.CsvProps
import Verif.SamplerCsvProps
import Mathlib.Analysis.SpecialFunctions.Trigonometric.Bounds
import Mathlib.Analysis.SpecialFunctions.Trigonometric.Deriv

/-! # C131: the examples on the line -/

namespace Albatross

open Matrix

/-! ## The grid -/

theorem uniformPoints_eq (n : Nat) (low high : ℝ) : uniformPoints n low high =
    (List.range n).map fun i : Nat => .fin low + .fin i / .fin ((n - 1 : Nat) : ℝ) * (.fin high - .fin low) := by
  unfold uniformPoints
  generalize List.range n = l
  suffices h : ∀ acc : List Dbl, l.foldl (fun xs (i : Nat) =>
      xs ++ [Dbl.fin low + .fin i / .fin ((n - 1 : Nat) : ℝ) * (.fin high - .fin low)]) acc =
      acc ++ l.map fun i : Nat => Dbl.fin low + .fin i / .fin ((n - 1 : Nat) : ℝ) * (.fin high - .fin low) by
    simpa using h []
  induction l with
  | nil => simp
  | cons a l ih => intro acc; rw [List.foldl_cons, ih]; simp

/-- With two points or more: that many, equally spaced, from `low` to `high`. -/
theorem C131_grid_partial (n : Nat) (hn : 2 ≤ n) (low high : ℝ) :
    (uniformPoints n low high).length = n ∧
    (∀ i (h : i < (uniformPoints n low high).length),
      (uniformPoints n low high)[i] = .fin (low + i * ((high - low) / (n - 1)))) ∧
    (uniformPoints n low high).head? = some (.fin low) ∧ (uniformPoints n low high).getLast? = some (.fin high) := by
  have hne : ((n - 1 : Nat) : ℝ) ≠ 0 := by
    have : n - 1 ≠ 0 := by omega
    exact_mod_cast this
  have hc : ((n - 1 : Nat) : ℝ) = (n : ℝ) - 1 := by rw [Nat.cast_sub (by omega)]; simp
  have key : uniformPoints n low high =
      (List.range n).map fun i : Nat => Dbl.fin (low + i * ((high - low) / (n - 1))) := by
    rw [uniformPoints_eq]
    refine List.map_congr_left fun i _ => ?_
    rw [Dbl.fin_div hne, hc]
    show Dbl.fin (low + (i / ((n : ℝ) - 1)) * (high + -low)) = _
    congr 1
    ring
  rw [key]
  refine ⟨by simp, fun i h => by simp, ?_, ?_⟩
  · obtain ⟨m, rfl⟩ : ∃ m, n = m + 1 := ⟨n - 1, by omega⟩
    simp [List.range_succ_eq_map]
  · obtain ⟨m, rfl⟩ : ∃ m, n = m + 1 := ⟨n - 1, by omega⟩
    have : (m : ℝ) ≠ 0 := by simpa using hne
    simp only [List.range_succ, List.map_append, List.map_cons, List.map_nil, List.getLast?_append, List.getLast?_singleton,
      Option.some_or, Nat.cast_add, Nat.cast_one, add_sub_cancel_right]
    rw [mul_div_cancel₀ _ this]
    congr 2; ring

/-- A single point is not a number. -/
theorem C131_grid_false (low high : ℝ) : uniformPoints 1 low high = [.nan] := by
  rw [uniformPoints_eq]
  simp only [List.range_one, List.map_cons, List.map_nil, Nat.cast_zero, Nat.sub_self]
  have : (Dbl.fin 0 / Dbl.fin 0 : Dbl) = .nan := by
    show Dbl.div _ _ = _
    simp [Dbl.div, Dbl.signInf]
  rw [this]
  rfl

example : uniformPoints 3 0 1 = [.fin 0, .fin (1 / 2), .fin 1] := by
  obtain ⟨h1, h2, -⟩ := C131_grid_partial 3 (by norm_num) 0 1
  refine List.ext_getElem h1 fun i h h' => ?_
  rw [h2]
  have : i < 3 := h'
  interval_cases i <;> norm_num

/-! ## The function -/

/-- `sinc` is the continuous extension of `sin x / x`: even, at most one, and one at zero only. -/
theorem C131_sinc : Continuous sinc ∧ (∀ x, sinc x * x = Real.sin x) ∧ sinc 0 = 1 ∧ (∀ x, sinc (-x) = sinc x) ∧
    ∀ x, x ≠ 0 → |sinc x| < 1 := by
  have hs : sinc = Real.sinc := by
    funext x; rw [sinc, Real.sinc]
  refine ⟨?_, fun x => ?_, by simp [sinc], fun x => ?_, fun x hx => ?_⟩
  · rw [hs]; exact Real.continuous_sinc
  · unfold sinc
    split_ifs with h
    · simp [h]
    · field_simp
  · rw [hs]; exact Real.sinc_neg x
  · unfold sinc
    rw [if_neg hx, abs_div, div_lt_one (abs_pos.2 hx)]
    exact Real.abs_sin_lt_abs hx

/-- The true function: the line with slope √2 through 3.14159, and a bump of height ten at three. -/
theorem C131_truth : Continuous sincTruth ∧ sincTruth 3 = 3 * Real.sqrt 2 + 3.14159 + 10 ∧
    ∀ x, |sincTruth x - (x * Real.sqrt 2 + 3.14159)| ≤ 10 := by
  obtain ⟨h1, -, h2, -, h3⟩ := C131_sinc
  refine ⟨?_, by simp [sincTruth, h2], fun x => ?_⟩
  · unfold sincTruth; fun_prop
  · have : |sinc (x - 3)| ≤ 1 := by
      by_cases h : x - 3 = 0
      · rw [h, h2]; simp
      · exact (h3 _ h).le
    unfold sincTruth
    rw [add_sub_cancel_left, abs_mul, abs_of_pos (by norm_num : (0 : ℝ) < 10)]
    linarith

/-! ## The file -/

theorem fieldOf_map (cols : List String) (f : String → String) (name : String) (h : name ∈ cols) :
    fieldOf cols (cols.map f) name = .ok (f name) := by
  unfold fieldOf
  have : (cols.zip (cols.map f)).find? (fun c => c.1 = name) = some (name, f name) := by
    induction cols with
    | nil => simp at h
    | cons c t ih =>
      rw [List.map_cons, List.zip_cons_cons, List.find?_cons]
      by_cases hc : c = name
      · simp [hc]
      · rw [show decide ((c, f c).1 = name) = false from by simp [hc]]
        exact ih (by simpa [Ne.symm hc] using h)
  rw [this]

theorem numberOf_map (cols : List String) (f : String → String) (name : String) (h : name ∈ cols) (v : Dbl)
    (hv : f name = sincToString v) : numberOf cols (cols.map f) name = .ok (restored v) := by
  unfold numberOf
  rw [fieldOf_map cols f name h, hv]
  obtain ⟨y, h1, -⟩ := stod_doubleToString v
  have hr : restored v = y := by unfold restored; rw [h1]; rfl
  simp only [except_ok_bind, sincToString, String.toList_ofList, h1, hr]

/-- Training data that are written and read again: as many, in the same order, every number rounded to six decimals; the
variances of the targets are dropped. -/
theorem C131_file_partial (b : Build) (d : Dataset Dbl Dbl) (hd : d.Valid) (hm : d.metadata = []) (hne : d.features ≠ []) :
    ∃ out d', writeDatasetCsv sincToString doubleMap b ⟨[], false⟩ d true = .ok out ∧ out.fail = false ∧
      readCsvInput (csvTable out.text) = .ok d' ∧ List.Forall₂ Rounded6 d.features d'.features ∧
      List.Forall₂ Rounded6 d.mean d'.mean ∧ d'.variance = List.replicate d.features.length (.fin 0) ∧ d'.metadata = [] ∧
      ((∀ x ∈ d.features, SixDecimals x) → d'.features = d.features) ∧
      ((∀ y ∈ d.mean, SixDecimals y) → d'.mean = d.mean) := by
  have hlen := hd.1
  obtain ⟨out, added, cols, h1, h2, h3, -, h4, h5⟩ := C64_dataset_only_partial sincToString doubleMap b d hd
    (fun f _ => by simp [SMap.WF, doubleMap]) (by rw [hm]; exact SMap.wf_nil) hne ⟨[], false⟩ rfl true
  have hpos : 0 < d.features.length := List.length_pos_iff.2 hne
  set z : CsvPrediction :=
    ⟨List.replicate d.features.length (.fin 0), List.replicate d.features.length (.fin 0), []⟩ with hz
  have entry : ∀ i (hi : i < d.features.length) c, csvEntry sincToString doubleMap d z i c =
      if c = "prediction_variance" then some (sincToString (.fin 0))
      else if c = "prediction" then some (sincToString (.fin 0))
      else if c = "target_variance" then some (sincToString (d.variance[i]'(by rw [hd.2]; exact hi)))
      else if c = "target" then some (sincToString (d.mean[i]'(by rw [hlen]; exact hi)))
      else if c = "feature" then some (sincToString d.features[i]) else none := by
    intro i hi c
    have e1 : (List.replicate d.features.length (Dbl.fin 0))[i]? = some (.fin 0) := by simp [hi]
    have e2 : d.variance[i]? = some (d.variance[i]'(by rw [hd.2]; exact hi)) := List.getElem?_eq_getElem _
    have e3 : d.mean[i]? = some (d.mean[i]'(by rw [hlen]; exact hi)) := List.getElem?_eq_getElem _
    have e4 : d.features[i]? = some d.features[i] := List.getElem?_eq_getElem hi
    simp only [csvEntry, hz, hm, SMap.find?, e1, e2, e3, e4, Option.map_some, Option.bind_some, doubleMap, Option.none_or]
  have hcols : ∀ c ∈ ["feature", "prediction", "prediction_variance", "target", "target_variance"], c ∈ cols := by
    intro c hc
    rw [h4]
    refine ⟨0, hpos, ?_⟩
    rw [entry 0 hpos]
    simp only [List.mem_cons, List.not_mem_nil, or_false] at hc
    rcases hc with rfl | rfl | rfl | rfl | rfl <;> simp
  have hplain : ∀ v, PlainField (sincToString v) := by
    intro v
    have := plain_doubleToString v
    simpa [PlainField, sincToString] using this.2
  have hcolsPlain : ∀ c ∈ cols, PlainField c := by
    intro c hc
    obtain ⟨i, hi, hs⟩ := (h4 c).1 hc
    rw [entry i hi] at hs
    split_ifs at hs with k1 k2 k3 k4 k5
    · subst k1; exact ⟨by decide, by decide⟩
    · subst k2; exact ⟨by decide, by decide⟩
    · subst k3; exact ⟨by decide, by decide⟩
    · subst k4; exact ⟨by decide, by decide⟩
    · subst k5; exact ⟨by decide, by decide⟩
    · simp at hs
  have hent : ∀ i < d.features.length, ∀ c v, csvEntry sincToString doubleMap d z i c = some v → PlainField v := by
    intro i hi c v hv
    rw [entry i hi] at hv
    split_ifs at hv <;> (first | (cases hv; exact hplain _) | cases hv)
  have htab := h5 hcolsPlain hent
  have hread : readCsvInput (csvTable out.text) = .ok ⟨d.features.map restored, d.mean.map restored,
      (d.mean.map restored).map fun _ => .fin 0, []⟩ := by
    rw [h3]
    simp only [List.nil_append]
    rw [htab]
    have hall : (["feature", "prediction", "prediction_variance", "target", "target_variance"].all (· ∈ cols)) = true := by
      simpa [List.all_eq_true] using hcols
    have hfold : ∀ (l : List Nat) (acc : List Dbl × List Dbl), (∀ i ∈ l, i < d.features.length) →
        (l.map fun i => cols.map fun c => (csvEntry sincToString doubleMap d z i c).getD "").foldlM
          (fun (acc : List Dbl × List Dbl) row => do
            let x ← numberOf cols row "feature"
            let _ ← numberOf cols row "prediction"
            let _ ← fieldOf cols row "prediction_variance"
            let y ← numberOf cols row "target"
            let _ ← fieldOf cols row "target_variance"
            pure (acc.1 ++ [x], acc.2 ++ [y])) acc = Except.ok (ε := Fault)
          (acc.1 ++ l.map fun i => restored (d.features.getD i .nan), acc.2 ++ l.map fun i => restored (d.mean.getD i .nan)) := by
      intro l
      induction l with
      | nil => intro acc _; simp [except_pure]
      | cons i t ih =>
        intro acc hl
        have hi := hl i (by simp)
        have n1 := numberOf_map cols (fun c => (csvEntry sincToString doubleMap d z i c).getD "") "feature"
          (hcols _ (by simp)) d.features[i] (by rw [entry i hi]; simp)
        have n2 := numberOf_map cols (fun c => (csvEntry sincToString doubleMap d z i c).getD "") "prediction"
          (hcols _ (by simp)) (.fin 0) (by rw [entry i hi]; simp)
        have n3 := fieldOf_map cols (fun c => (csvEntry sincToString doubleMap d z i c).getD "") "prediction_variance"
          (hcols _ (by simp))
        have n4 := numberOf_map cols (fun c => (csvEntry sincToString doubleMap d z i c).getD "") "target"
          (hcols _ (by simp)) (d.mean[i]'(by omega)) (by rw [entry i hi]; simp)
        have n5 := fieldOf_map cols (fun c => (csvEntry sincToString doubleMap d z i c).getD "") "target_variance"
          (hcols _ (by simp))
        rw [List.map_cons, List.foldlM_cons]
        simp only [n1, n2, n3, n4, n5, except_ok_bind, except_pure]
        refine (ih _ fun j hj => hl j (by simp [hj])).trans ?_
        have g1 : d.features.getD i .nan = d.features[i] := by simp [List.getD, hi]
        have g2 : d.mean.getD i .nan = d.mean[i]'(by omega) := by simp [List.getD, hlen, hi]
        rw [List.map_cons, List.map_cons, g1, g2]
        simp
    have r1 : ((List.range d.features.length).map fun i => restored (d.features.getD i .nan)) = d.features.map restored := by
      refine List.ext_getElem (by simp) fun i h h' => ?_
      have : i < d.features.length := by simpa using h
      simp [List.getD, this]
    have r2 : ((List.range d.features.length).map fun i => restored (d.mean.getD i .nan)) = d.mean.map restored := by
      refine List.ext_getElem (by simp [hlen]) fun i h h' => ?_
      have : i < d.mean.length := by simpa using h'
      simp [List.getD, this]
    have hmne : d.mean ≠ [] := by
      intro h; rw [h] at hlen; simp at hlen; omega
    simp only [if_true, List.singleton_append, readCsvInput, hall, except_pure]
    simp only [except_pure] at hfold
    rw [hfold _ _ fun i hi => List.mem_range.1 hi, r1, r2]
    simp [except_ok_bind, hmne, Function.comp_def]
  have hf : ∀ l : List Dbl, List.Forall₂ Rounded6 l (l.map restored) := by
    intro l
    rw [List.forall₂_map_right_iff]
    exact List.forall₂_same.2 fun x _ => (restored_spec x).1
  refine ⟨out, _, h1, h2, hread, hf _, hf _, by simp [Function.comp_def, hlen], rfl, fun h => ?_, fun h => ?_⟩
  · exact (List.map_congr_left fun x hx => (restored_spec x).2 (h x hx)).trans (List.map_id _)
  · exact (List.map_congr_left fun x hx => (restored_spec x).2 (h x hx)).trans (List.map_id _)

/-- Without training data nothing is written, which cannot be read; a header alone is undefined behaviour. -/
theorem C131_file_false (b : Build) :
    (∃ out, writeDatasetCsv sincToString doubleMap b ⟨[], false⟩ (⟨[], [], [], []⟩ : Dataset Dbl Dbl) true = .ok out ∧
      out.text = [] ∧ readCsvInput (csvTable out.text) = .error .thrown) ∧
    readCsvInput [["feature", "prediction", "prediction_variance", "target", "target_variance"]] = .error .ub := by
  refine ⟨⟨_, rfl, rfl, rfl⟩, ?_⟩
  simp [readCsvInput, except_pure, except_ok_bind]

/-- Two inputs that are distinct can be equal once read, and then `C131_prediction_false` applies. -/
theorem C131_rounding_false : restored (.fin (1 / 10 ^ 7)) = restored (.fin 0) := by
  obtain ⟨h1, -⟩ := restored_spec (.fin (1 / 10 ^ 7))
  have h2 : restored (.fin 0) = .fin 0 := (restored_spec (.fin 0)).2 ⟨0, by simp⟩
  rw [h2]
  revert h1
  cases hr : restored (.fin (1 / 10 ^ 7)) with
  | fin y =>
    rintro ⟨⟨k, rfl⟩, hk⟩
    rw [abs_le] at hk
    have a1 : (k : ℝ) < 1 := by have := hk.1; norm_num at this ⊢; linarith
    have a2 : (-1 : ℝ) < k := by have := hk.2; norm_num at this ⊢; linarith
    have : k = 0 := by
      have b1 : k < 1 := by exact_mod_cast a1
      have b2 : -1 < k := by exact_mod_cast a2
      omega
    rw [this]; simp
  | _ => intro h; cases h

example : ∃ out d', writeDatasetCsv sincToString doubleMap .debug ⟨[], false⟩
    ⟨[.fin 1, .fin 2], [.fin (1 / 2), .fin 3], [.fin 1, .fin 1], []⟩ true = .ok out ∧
    readCsvInput (csvTable out.text) = .ok d' ∧ d'.features = [.fin 1, .fin 2] ∧ d'.mean = [.fin (1 / 2), .fin 3] := by
  obtain ⟨out, d', h1, -, h2, -, -, -, -, h3, h4⟩ := C131_file_partial .debug
    ⟨[.fin 1, .fin 2], [.fin (1 / 2), .fin 3], [.fin 1, .fin 1], []⟩ ⟨rfl, rfl⟩ rfl (by simp)
  refine ⟨out, d', h1, h2, h3 ?_, h4 ?_⟩ <;> intro x hx <;> simp only [List.mem_cons, List.not_mem_nil, or_false] at hx <;>
    rcases hx with rfl | rfl
  · exact ⟨10 ^ 6, by norm_num⟩
  · exact ⟨2 * 10 ^ 6, by norm_num⟩
  · exact ⟨5 * 10 ^ 5, by norm_num⟩
  · exact ⟨3 * 10 ^ 6, by norm_num⟩

/-! ## The models -/

/-- The covariance of the function in the two modes without a mean. -/
noncomputable def sincKernel : String → ℝ → ℝ → ℝ
  | "radial_only", x, y => 100 ^ 2 * Real.exp (-((x - y) / 3.5) ^ 2)
  | "radial", x, y => 100 ^ 2 * (1 + x * y) + 5.7 ^ 2 * Real.exp (-((x - y) / 3.5) ^ 2)
  | _, _, _ => 0

/-- The mean of the parametric mode. -/
noncomputable def sincMean : String → ℝ → ℝ
  | "parametric", x => 10 * sinc (x - 3)
  | _, _ => 0

/-- What a mode computes with: measurements have independent errors of variance one. -/
noncomputable def sincGp (mode : String) : Gp MeasDouble where
  cov x y := sincKernel mode x.value y.value + if x.meas && y.meas then (if x.value = y.value then 1 else 0) else 0
  mean x := sincMean mode x.value
  asMeas x := ⟨true, x.value⟩

theorem sincNoise_call (x y : ℝ) : CovType.noise.call sincNoise x y = some (if x = y then 1 else 0) := by
  have : CovType.noise.call sincNoise x y = some (noiseCov 1 x y) := rfl
  rw [this]
  simp [noiseCov]

theorem seCall (x y s : ℝ) : (CovType.radial .squaredExponential).call
    (RadialKind.squaredExponential.make (.fin 3.5) (.fin s)) x y = some (s ^ 2 * Real.exp (-((x - y) / 3.5) ^ 2)) := by
  have : (CovType.radial .squaredExponential).call (RadialKind.squaredExponential.make (.fin 3.5) (.fin s)) x y =
    some (squaredExponential (euclideanDistance x y) 3.5 s) := rfl
  rw [this]
  unfold squaredExponential euclideanDistance
  rw [if_neg (by norm_num), div_pow, div_pow, sq_abs, sq s]

theorem polyCall (x y : ℝ) : (CovType.polynomial 1).call (makePolynomial 1 (.fin 100)) x y =
    some (100 ^ 2 * (1 + x * y)) := by
  have : (CovType.polynomial 1).call (makePolynomial 1 (.fin 100)) x y =
    some (0 + 100 * 100 * x ^ 0 * y ^ 0 + 100 * 100 * x ^ 1 * y ^ 1) := rfl
  rw [this]
  congr 1; ring

theorem sincPredict_eq {n q : Type} [Fintype n] [DecidableEq n] (mode : String)
    (hm : mode = "radial_only" ∨ mode = "radial" ∨ mode = "parametric") (ldlt : Matrix n n ℝ → Ldlt n)
    (train y : n → ℝ) (grid : q → ℝ) :
    sincPredict mode ldlt train y grid = some ((sincGp mode).predictMarginal
      ((sincGp mode).fit ldlt (fun i => ⟨false, train i⟩) ⟨y, fun _ => 0⟩) fun j => ⟨true, grid j⟩) := by
  rcases hm with rfl | rfl | rfl
  · have hg : (⟨fun x y => ((ModelCov.sum (.plain (.radial .squaredExponential)) (.measOnly .noise)).call
          (.both (RadialKind.squaredExponential.make (.fin 3.5) (.fin 100)) (.wrapped sincNoise)) x y).getD 0,
        fun _ => (some (0 : ℝ)).getD 0, fun x => ⟨true, x.value⟩⟩ : Gp MeasDouble) =
        sincGp "radial_only" := by
      unfold sincGp
      congr 1
      funext x y
      simp only [ModelCov.call, sincNoise_call, seCall]
      cases x.meas <;> cases y.meas <;> simp [sincKernel]
    unfold sincPredict sincModel
    exact congrArg some (by rw [← hg])
  · have hg : (⟨fun x y => ((ModelCov.sum (.sum (.plain (.polynomial 1)) (.plain (.radial .squaredExponential)))
          (.measOnly .noise)).call
          (.both (.both (makePolynomial 1 (.fin 100)) (RadialKind.squaredExponential.make (.fin 3.5) (.fin 5.7)))
            (.wrapped sincNoise)) x y).getD 0,
        fun _ => (some (0 : ℝ)).getD 0, fun x => ⟨true, x.value⟩⟩ : Gp MeasDouble) =
        sincGp "radial" := by
      unfold sincGp
      congr 1
      funext x y
      simp only [ModelCov.call, sincNoise_call, seCall, polyCall]
      cases x.meas <;> cases y.meas <;> simp [sincKernel]
    unfold sincPredict sincModel
    exact congrArg some (by rw [← hg])
  · have hmean : ∀ x : ℝ, (do
          let u ← MeanType.linear.call makeLinear x
          let v ← sincMeanCall makeSinc x
          pure (u + v)) = some (sincMean "parametric" x) := by
      intro x
      have h1 : MeanType.linear.call makeLinear x = some (0 * x + 0) := rfl
      have h2 : sincMeanCall makeSinc x = some (10 * sinc (x - 3)) := rfl
      rw [h1, h2]
      simp [sincMean]
    have hg : (⟨fun x y => ((ModelCov.measOnly .noise).call (.wrapped sincNoise) x y).getD 0,
        fun x => (do
          let u ← MeanType.linear.call makeLinear x.value
          let v ← sincMeanCall makeSinc x.value
          pure (u + v) : Option ℝ).getD 0, fun x => ⟨true, x.value⟩⟩ : Gp MeasDouble) =
        sincGp "parametric" := by
      unfold sincGp
      congr 1
      · funext x y
        simp only [ModelCov.call, sincNoise_call]
        cases x.meas <;> cases y.meas <;> simp [sincKernel]
      · funext x
        rw [hmean, Option.getD_some]
    unfold sincPredict sincModel
    exact congrArg some (by rw [← hg])

theorem sincKernel_psd (mode : String) : IsPSD (sincKernel mode) := by
  have hse : ∀ s : ℝ, IsPSD fun x y : ℝ => s ^ 2 * Real.exp (-((x - y) / 3.5) ^ 2) := by
    intro s
    refine cast (congrArg IsPSD ?_) (C22_squared_exponential_real_psd 3.5 s)
    funext x y
    unfold squaredExponential euclideanDistance
    rw [if_neg (by norm_num), div_pow, div_pow, sq_abs, sq s]
  by_cases h1 : mode = "radial_only"
  · subst h1
    exact cast (congrArg IsPSD (by funext x y; simp [sincKernel])) (hse 100)
  by_cases h2 : mode = "radial"
  · subst h2
    have hl : IsPSD fun x y : ℝ => (100 : ℝ) ^ 2 * (1 + x * y) := by
      have a : IsPSD fun _ _ : ℝ => (1 : ℝ) := IsPSD.const zero_le_one
      have b : IsPSD fun x y : ℝ => x * y := IsPSD.rank_one fun x : ℝ => x
      exact (a.add b).smul (by positivity)
    exact cast (congrArg IsPSD (by funext x y; simp [sincKernel])) (hl.add (hse 5.7))
  · refine cast (congrArg IsPSD ?_) (IsPSD.const (le_refl (0 : ℝ)))
    funext x y
    unfold sincKernel
    split <;> simp_all

theorem sincGp_symm (mode : String) (x y : MeasDouble) : (sincGp mode).cov x y = (sincGp mode).cov y x := by
  show sincKernel mode x.value y.value + _ = sincKernel mode y.value x.value + _
  rw [(sincKernel_psd mode).1 x.value y.value, Bool.and_comm]
  simp only [eq_comm]

theorem sincObs {n : Type} [Fintype n] [DecidableEq n] (mode : String) (train : n → ℝ) (hi : Function.Injective train) :
    obsCovariance (sincGp mode) (fun i => ⟨false, train i⟩) (fun _ => 0) =
      (of fun i j => sincKernel mode (train i) (train j)) + 1 := by
  ext i j
  simp [obsCovariance, sincGp, Matrix.one_apply, hi.eq_iff]

theorem sincObs_posDef {n : Type} [Fintype n] [DecidableEq n] (mode : String) (train : n → ℝ) :
    ((of fun i j => sincKernel mode (train i) (train j)) + 1 : Matrix n n ℝ).PosDef :=
  PosDef.posSemidef_add ((sincKernel_psd mode).matrix_fintype train) PosDef.one

/-- The predictions that are written: the textbook posterior of the function, its variance increased by the variance of
the measurement errors, for all training data with distinct inputs. -/
theorem C131_prediction_partial {n q : Type} [Fintype n] [DecidableEq n] [Fintype q] (mode : String)
    (hm : mode = "radial_only" ∨ mode = "radial") (ldlt : Matrix n n ℝ → Ldlt n) (hl : ∀ A, A.PosDef → (ldlt A).Factors A)
    (train y : n → ℝ) (hi : Function.Injective train) (grid : q → ℝ) :
    let K : Matrix n n ℝ := of fun i j => sincKernel mode (train i) (train j)
    ∃ p, sincPredict mode ldlt train y grid = some p ∧
      (∀ j, p.mean j = ∑ i, sincKernel mode (grid j) (train i) * ((K + 1)⁻¹ *ᵥ y) i) ∧
      (∀ j, p.variance j = sincKernel mode (grid j) (grid j) + 1 -
        ∑ i, ∑ k, sincKernel mode (grid j) (train i) * (K + 1)⁻¹ i k * sincKernel mode (train k) (grid j)) ∧
      ∀ j, 1 ≤ p.variance j ∧ p.variance j ≤ sincKernel mode (grid j) (grid j) + 1 := by
  classical
  intro K
  have hobs := sincObs mode train hi
  have hpd := sincObs_posDef mode train
  have hF : (ldlt (obsCovariance (sincGp mode) (fun i => ⟨false, train i⟩) (fun _ => 0))).Factors
      (obsCovariance (sincGp mode) (fun i => ⟨false, train i⟩) (fun _ => 0)) := by rw [hobs]; exact hl _ hpd
  have hA : IsUnit (obsCovariance (sincGp mode) (fun i => ⟨false, train i⟩) (fun _ => 0)).det := by
    rw [hobs]; exact hpd.det_pos.ne'.isUnit
  have hmean : ∀ x, (sincGp mode).mean x = 0 := by
    intro x
    rcases hm with rfl | rfl <;> rfl
  obtain ⟨f1, f2⟩ := C27_prediction_formulas (sincGp mode) (sincGp_symm mode) ldlt (fun i => ⟨false, train i⟩)
    ⟨y, fun _ => 0⟩ hF hA fun j : q => ⟨true, grid j⟩
  obtain ⟨-, p2⟩ := C27_prediction_formulas (sincGp mode) (sincGp_symm mode) ldlt (fun i => ⟨false, train i⟩)
    ⟨y, fun _ => 0⟩ hF hA fun j : q => ⟨false, grid j⟩
  have hpsd : IsPSD (sincGp mode).cov := by
    have h1 : IsPSD fun x y : MeasDouble => sincKernel mode x.value y.value := (sincKernel_psd mode).comp MeasDouble.value
    have h2 : IsPSD fun x y : MeasDouble => if x.value = y.value then (1 : ℝ) else 0 :=
      (cast (congrArg IsPSD (by funext x y; simp [noiseCov])) (C22_noise_psd (X := ℝ) 1) :
        IsPSD fun x y : ℝ => if x = y then (1 : ℝ) else 0).comp MeasDouble.value
    have h3 : IsPSD fun x y : MeasDouble => (if x.meas then (1 : ℝ) else 0) * if y.meas then (1 : ℝ) else 0 :=
      IsPSD.rank_one _
    refine cast (congrArg IsPSD ?_) (h1.add (h3.mul h2))
    funext x y
    show _ = sincKernel mode x.value y.value + _
    cases x.meas <;> cases y.meas <;> simp
  obtain ⟨b1, b2⟩ := C27_covariance_psd (sincGp mode) hpsd (fun x y => if x.value = y.value then 1 else 0)
    ((cast (congrArg IsPSD (by funext x y; simp [noiseCov])) (C22_noise_psd (X := ℝ) 1) :
        IsPSD fun x y : ℝ => if x = y then (1 : ℝ) else 0).comp MeasDouble.value) ldlt (fun i => ⟨false, train i⟩)
    (fun i j => by simp [sincGp]) ⟨y, fun _ => 0⟩ (fun _ => le_rfl) hF hA fun j : q => ⟨false, grid j⟩
  obtain ⟨e1, -, e3⟩ := C27_forms_agree (sincGp mode) ((sincGp mode).fit ldlt (fun i => ⟨false, train i⟩) ⟨y, fun _ => 0⟩)
    fun j : q => (⟨true, grid j⟩ : MeasDouble)
  have hks : ∀ m : Bool, (of fun i (j : q) => (sincGp mode).cov ⟨false, train i⟩ ⟨m, grid j⟩ : Matrix n q ℝ) =
      of fun i j => sincKernel mode (train i) (grid j) := by
    intro m; ext i j; simp [sincGp]
  have hshift : ∀ j, ((sincGp mode).predictJoint ((sincGp mode).fit ldlt (fun i => ⟨false, train i⟩) ⟨y, fun _ => 0⟩)
        fun j : q => ⟨true, grid j⟩).covariance j j = ((sincGp mode).predictJoint
        ((sincGp mode).fit ldlt (fun i => ⟨false, train i⟩) ⟨y, fun _ => 0⟩) fun j : q => ⟨false, grid j⟩).covariance j j
        + 1 := by
    intro j
    rw [f2, p2, hks, hks, Matrix.sub_apply, Matrix.sub_apply]
    simp only [of_apply, sincGp, Bool.and_self, if_true]
    simp only [Bool.false_eq_true, if_false]
    ring
  refine ⟨_, sincPredict_eq mode (by tauto) ldlt train y grid, fun j => ?_, fun j => ?_, fun j => ?_⟩
  · rw [e1, f1 j, hmean, zero_add, hks, hobs]
    simp only [mulVec, dotProduct, transpose_apply, of_apply, hmean, sub_zero]
    exact Finset.sum_congr rfl fun i _ => by rw [(sincKernel_psd mode).1 (train i) (grid j)]
  · rw [e3, f2, hks, hobs, Matrix.sub_apply, Matrix.mul_apply]
    simp only [Matrix.mul_apply, transpose_apply, of_apply, Finset.sum_mul]
    rw [Finset.sum_comm]
    congr 1
    · simp [sincGp]
    · exact Finset.sum_congr rfl fun i _ => Finset.sum_congr rfl fun k _ => by
        rw [(sincKernel_psd mode).1 (train i) (grid j)]
  · rw [e3, hshift]
    have c1 := b1.diag_nonneg (i := j)
    have c2 := b2.diag_nonneg (i := j)
    rw [Matrix.sub_apply] at c2
    have : (sincGp mode).cov ⟨false, grid j⟩ ⟨false, grid j⟩ = sincKernel mode (grid j) (grid j) := by simp [sincGp]
    rw [of_apply, this] at c2
    constructor <;> linarith

/-- Two training inputs that are equal: the matrix that is factored is singular, in every mode. -/
theorem C131_prediction_false {n : Type} [Fintype n] [DecidableEq n] (mode : String) (train : n → ℝ) (i j : n)
    (hij : i ≠ j) (h : train i = train j) :
    (obsCovariance (sincGp mode) (fun i => ⟨false, train i⟩) (fun _ => 0)).det = 0 := by
  refine Matrix.det_zero_of_row_eq hij ?_
  funext k
  simp [obsCovariance, sincGp, h]

/-- The parametric mode without tuning: the training data are not used. -/
theorem C131_parametric {n q : Type} [Fintype n] [DecidableEq n] (ldlt : Matrix n n ℝ → Ldlt n) (train y : n → ℝ)
    (grid : q → ℝ) : ∃ p, sincPredict "parametric" ldlt train y grid = some p ∧
      (∀ j, p.mean j = 10 * sinc (grid j - 3)) ∧ ∀ j, p.variance j = 1 := by
  have hc : (sincGp "parametric").covMat ((sincGp "parametric").fit ldlt (fun i => ⟨false, train i⟩)
      ⟨y, fun _ => 0⟩).features (fun j => ⟨true, grid j⟩) = 0 := by
    ext i j
    show (sincGp "parametric").cov ⟨false, train i⟩ ⟨true, grid j⟩ = 0
    simp [sincGp, sincKernel]
  refine ⟨_, sincPredict_eq "parametric" (by tauto) ldlt train y grid, fun j => ?_, fun j => ?_⟩
  · simp only [Gp.predictMarginal, hc]
    simp [Gp.addTo, gpMarginalPrediction, gpMeanPrediction, sincGp, sincMean]
  · simp only [Gp.predictMarginal, hc]
    simp [gpMarginalPrediction, sincGp, sincKernel]

/-- The trend of the true function is not in the predictions of the parametric mode, whatever the data. -/
theorem C131_parametric_false {n : Type} [Fintype n] [DecidableEq n] (ldlt : Matrix n n ℝ → Ldlt n) (train y : n → ℝ)
    (x : ℝ) (hx : 0 ≤ x) : ∃ p, sincPredict "parametric" ldlt train y (fun _ : Unit => x) = some p ∧
      sincTruth x - p.mean () = x * Real.sqrt 2 + 3.14159 ∧ 3 < sincTruth x - p.mean () := by
  obtain ⟨p, h1, h2, -⟩ := C131_parametric ldlt train y fun _ : Unit => x
  refine ⟨p, h1, ?_, ?_⟩ <;> rw [h2, sincTruth]
  · ring
  · have : 0 ≤ x * Real.sqrt 2 := by positivity
    norm_num
    linarith

/-- Any other mode writes nothing. -/
theorem C131_modes {n q : Type} [Fintype n] [DecidableEq n] (mode : String) (ldlt : Matrix n n ℝ → Ldlt n) (train y : n → ℝ)
    (grid : q → ℝ) : (sincPredict mode ldlt train y grid).isSome ↔
      mode = "radial_only" ∨ mode = "radial" ∨ mode = "parametric" := by
  constructor
  · intro h
    by_contra hc
    push Not at hc
    unfold sincPredict sincModel at h
    split at h
    · rename_i heq
      split at heq <;> simp_all
    · simp at h
  · intro h
    rw [sincPredict_eq mode h]; rfl

/-! ## Inspecting the constant -/

theorem inspectConstant_kernel (σ : ℝ) (x y : Feat InspectFeature) :
    kernel (inspectConstant σ) x y = σ * σ := by
  obtain ⟨a, m, x⟩ := x
  obtain ⟨c, n, y⟩ := y
  have h : accepts (inspectConstant σ) ⟨a, m, x⟩ ⟨c, n, y⟩ = true := by
    cases m <;> cases n <;> simp [accepts, atomTy, defaultCaller, varLayer, varValid, measLayer, measValid, linLayer,
      linValid, symLayer, inspectConstant]
  unfold kernel
  rw [if_pos h]
  cases m <;> cases n <;> simp [atomTy, atomVal, defaultCaller, varLayer, varValid, varCall, measLayer, measCall,
    linLayer, linValid, linCall, symLayer, inspectConstant]

theorem onDoubles_kernel (f : ℝ → ℝ → ℝ) (m n : Bool) (x y : ℝ) :
    kernel (onDoubles f) ⟨false, m, x⟩ ⟨false, n, y⟩ = f x y := by
  have h : accepts (onDoubles f) ⟨false, m, x⟩ ⟨false, n, y⟩ = true := by
    cases m <;> cases n <;> simp [accepts, atomTy, defaultCaller, varLayer, varValid, measLayer, measValid, linLayer,
      linValid, symLayer, onDoubles]
  unfold kernel
  rw [if_pos h]
  cases m <;> cases n <;> simp [atomTy, atomVal, defaultCaller, varLayer, varValid, varCall, measLayer, measCall,
    linLayer, linValid, linCall, symLayer, onDoubles]

theorem onDoubles_term (f : ℝ → ℝ → ℝ) (m n : Bool) (u : Unit) (y : Feat InspectFeature) :
    kernel (onDoubles f) ⟨true, m, u⟩ y = 0 ∧ kernel (onDoubles f) y ⟨true, n, u⟩ = 0 := by
  obtain ⟨c, k, y⟩ := y
  have h1 : accepts (onDoubles f) ⟨true, m, u⟩ ⟨c, k, y⟩ = false := by
    cases m <;> cases k <;> cases c <;> simp [accepts, atomTy, defaultCaller, varLayer, varValid, measLayer, measValid,
      linLayer, linValid, symLayer, onDoubles]
  have h2 : accepts (onDoubles f) ⟨c, k, y⟩ ⟨true, n, u⟩ = false := by
    cases n <;> cases k <;> cases c <;> simp [accepts, atomTy, defaultCaller, varLayer, varValid, measLayer, measValid,
      linLayer, linValid, symLayer, onDoubles]
  exact ⟨by unfold kernel; rw [h1]; rfl, by unfold kernel; rw [h2]; rfl⟩

/-- The covariance of the observations of the inspection: constant, function and errors. -/
noncomputable def inspectObs {n : Type} [DecidableEq n] (train : n → ℝ) : Matrix n n ℝ :=
  of fun i j => 100 ^ 2 + 5.7 ^ 2 * Real.exp (-((train i - train j) / 3.5) ^ 2) + if i = j then 1 else 0

theorem inspectCov_double (m n : Bool) (x y : ℝ) : inspectGp.cov ⟨false, m, x⟩ ⟨false, n, y⟩ =
    100 ^ 2 + (if x = y then 1 else 0) + 5.7 ^ 2 * Real.exp (-((x - y) / 3.5) ^ 2) := by
  show kernel inspectCov _ _ = _
  unfold inspectCov
  rw [(C20_sum_value _ _ _ _).2, (C20_sum_value _ _ _ _).2, inspectConstant_kernel, onDoubles_kernel, onDoubles_kernel]
  unfold squaredExponential euclideanDistance
  rw [if_neg (by norm_num : ¬(3.5 : ℝ) ≤ 0), div_pow, div_pow, sq_abs, mul_one, ← sq, ← sq]

theorem inspectCov_term (m n : Bool) (u : Unit) (y : Feat InspectFeature) :
    inspectGp.cov ⟨true, m, u⟩ y = 100 ^ 2 ∧ inspectGp.cov y ⟨true, n, u⟩ = 100 ^ 2 := by
  constructor <;>
  · show kernel inspectCov _ _ = _
    unfold inspectCov
    rw [(C20_sum_value _ _ _ _).2, (C20_sum_value _ _ _ _).2, inspectConstant_kernel]
    simp only [(onDoubles_term _ m n u y).1, (onDoubles_term _ m n u y).2]
    ring

theorem inspect_symm (x y : Feat InspectFeature) : inspectGp.cov x y = inspectGp.cov y x := by
  obtain ⟨a, m, x⟩ := x
  obtain ⟨c, n, y⟩ := y
  cases a
  · cases c
    · have h : ∀ u v : ℝ, inspectGp.cov ⟨false, m, u⟩ ⟨false, n, v⟩ = inspectGp.cov ⟨false, n, v⟩ ⟨false, m, u⟩ := by
        intro u v
        rw [inspectCov_double, inspectCov_double, ← neg_sub v u, neg_div, neg_sq]
        simp only [eq_comm]
      exact h x y
    · rw [(inspectCov_term n n y ⟨false, m, x⟩).2, (inspectCov_term n n y ⟨false, m, x⟩).1]
  · rw [(inspectCov_term m m x ⟨c, n, y⟩).2, (inspectCov_term m m x ⟨c, n, y⟩).1]

theorem inspectObs_eq {n : Type} [Fintype n] [DecidableEq n] (train : n → ℝ) (hi : Function.Injective train) :
    obsCovariance inspectGp (fun i => ⟨false, false, train i⟩) (fun _ => 0) = inspectObs train := by
  ext i j
  have : obsCovariance inspectGp (fun i => ⟨false, false, train i⟩) (fun _ => 0) i j =
      inspectGp.cov ⟨false, true, train i⟩ ⟨false, true, train j⟩ := by
    simp [obsCovariance, inspectGp]
  rw [this, inspectCov_double]
  simp only [inspectObs, of_apply, hi.eq_iff]
  ring

theorem inspectObs_split {n : Type} [DecidableEq n] (train : n → ℝ) :
    inspectObs train = (of fun _ _ => (100 : ℝ) ^ 2) + ((of fun i j => sincKernel "radial_only" (train i) (train j) *
      0.057 ^ 2) + 1) := by
  ext i j
  simp only [inspectObs, of_apply, Matrix.add_apply, Matrix.one_apply, sincKernel]
  ring

theorem inspectRest_posDef {n : Type} [Fintype n] [DecidableEq n] (train : n → ℝ) :
    ((of fun i j => sincKernel "radial_only" (train i) (train j) * 0.057 ^ 2) + 1 : Matrix n n ℝ).PosDef := by
  refine PosDef.posSemidef_add ?_ PosDef.one
  have := (sincKernel_psd "radial_only").smul (by norm_num : (0 : ℝ) ≤ 0.057 ^ 2)
  refine cast (congrArg Matrix.PosSemidef ?_) (this.matrix_fintype train)
  ext i j
  simp only [of_apply]
  ring

theorem inspectObs_posDef {n : Type} [Fintype n] [DecidableEq n] (train : n → ℝ) : (inspectObs train).PosDef := by
  rw [inspectObs_split]
  refine PosDef.posSemidef_add ?_ (inspectRest_posDef train)
  have : IsPSD fun _ _ : ℝ => (100 : ℝ) ^ 2 := IsPSD.const (by positivity)
  exact this.matrix_fintype train

/-- The state that is predicted: one number whatever the features, which is the constant given the observations, that are
the constant plus the function plus errors.  With observations it is known better than before, and never exactly. -/
theorem C131_inspection {n : Type} [Fintype n] [DecidableEq n] (ldlt : Matrix n n ℝ → Ldlt n)
    (hl : ∀ A, A.PosDef → (ldlt A).Factors A) (train y : n → ℝ) (hi : Function.Injective train) (features : List ℝ) :
    let p := inspectConstantTerm ldlt train y features
    (constantState features).length = 1 ∧
    IsGaussianConditional (fun _ => 0) (fun _ => 0) (of fun _ _ => 100 ^ 2) (of fun _ _ => 100 ^ 2) (inspectObs train) y
      p.mean p.covariance ∧
    ∀ j, 0 < p.covariance j j ∧ p.covariance j j ≤ 100 ^ 2 ∧ (Nonempty n → p.covariance j j < 100 ^ 2) := by
  intro p
  have hobs := inspectObs_eq train hi
  have hpd := inspectObs_posDef train
  have hA : IsUnit (obsCovariance inspectGp (fun i => ⟨false, false, train i⟩) (fun _ => 0)).det := by
    rw [hobs]; exact hpd.det_pos.ne'.isUnit
  have hcond := C27_prediction_is_conditional inspectGp inspect_symm ldlt (fun i => ⟨false, false, train i⟩)
    ⟨y, fun _ => 0⟩ (by rw [hobs]; exact hl _ hpd) hA fun j => (constantState features).get j
  have hterm : ∀ j, (constantState features).get j = ⟨true, false, ()⟩ := by
    intro j
    have : j = ⟨0, by simp [constantState]⟩ := by
      ext; have := j.2; simp [constantState] at this; simpa using this
    rw [this]; rfl
  have hc : IsGaussianConditional (fun _ => 0) (fun _ => 0) (of fun _ _ => 100 ^ 2) (of fun _ _ => 100 ^ 2)
      (inspectObs train) y p.mean p.covariance := by
    have e1 : (of fun j j' => inspectGp.cov ((constantState features).get j) ((constantState features).get j') :
        Matrix _ _ ℝ) = of fun _ _ => 100 ^ 2 := by
      ext j j'; rw [of_apply, hterm, hterm, (inspectCov_term false false () _).1]; rfl
    have e2 : (of fun j i => inspectGp.cov ((constantState features).get j) ⟨false, false, train i⟩ :
        Matrix _ n ℝ) = of fun _ _ => 100 ^ 2 := by
      ext j i; rw [of_apply, hterm, (inspectCov_term false false () _).1]; rfl
    rw [e1, e2, hobs] at hcond
    exact hcond
  refine ⟨rfl, hc, fun j => ?_⟩
  have hsym : (inspectObs train)ᵀ = inspectObs train := by
    have := hpd.1; rwa [IsHermitian, conjTranspose_eq_transpose_of_trivial] at this
  have hdet : IsUnit (inspectObs train).det := hpd.det_pos.ne'.isUnit
  obtain ⟨-, hP⟩ := (isGaussianConditional_iff hsym hdet).1 hc
  set A := inspectObs train with hAdef
  let u : n → ℝ := fun _ => 1
  have hval : p.covariance j j = 100 ^ 2 - 100 ^ 4 * (u ⬝ᵥ A⁻¹ *ᵥ u) := by
    rw [hP, Matrix.sub_apply, Matrix.mul_apply]
    simp only [Matrix.mul_apply, of_apply, transpose_apply, dotProduct, mulVec, u, mul_one, one_mul, ← Finset.sum_mul,
      ← Finset.mul_sum]
    rw [Finset.sum_comm]
    ring
  have hpos : ∀ v : n → ℝ, v ≠ 0 → 0 < v ⬝ᵥ A⁻¹ *ᵥ v := fun v hv => by
    simpa using hpd.inv.dotProduct_mulVec_pos hv
  have hone : 100 ^ 2 * (u ⬝ᵥ A⁻¹ *ᵥ u) < 1 := by
    -- with w = A⁻¹ u and s = u ⬝ w: s = w ⬝ A w ≥ 100² s² with a strict inequality unless w = 0
    set w := A⁻¹ *ᵥ u with hw
    have hAw : A *ᵥ w = u := by rw [hw, mulVec_mulVec, mul_nonsing_inv _ hdet, one_mulVec]
    by_cases h0 : w = 0
    · rw [h0]; simp
    have hq : w ⬝ᵥ A *ᵥ w = 100 ^ 2 * (u ⬝ᵥ w) ^ 2 + w ⬝ᵥ ((of fun i j => sincKernel "radial_only" (train i) (train j) *
        0.057 ^ 2) + 1 : Matrix n n ℝ) *ᵥ w := by
      rw [hAdef, inspectObs_split, Matrix.add_mulVec, dotProduct_add]
      congr 1
      simp only [dotProduct, mulVec, of_apply, u, one_mul, ← Finset.mul_sum, ← Finset.sum_mul]
      ring
    have hr : 0 < w ⬝ᵥ ((of fun i j => sincKernel "radial_only" (train i) (train j) * 0.057 ^ 2) + 1 :
        Matrix n n ℝ) *ᵥ w := by
      simpa using (inspectRest_posDef train).dotProduct_mulVec_pos h0
    rw [hAw, dotProduct_comm] at hq
    by_contra hc
    push Not at hc
    nlinarith
  have hnn : 0 ≤ u ⬝ᵥ A⁻¹ *ᵥ u := by simpa using hpd.inv.posSemidef.dotProduct_mulVec_nonneg u
  refine ⟨by rw [hval]; nlinarith, by rw [hval]; nlinarith, fun ⟨i⟩ => ?_⟩
  have : 0 < u ⬝ᵥ A⁻¹ *ᵥ u := hpos u fun h => one_ne_zero (congrFun h i)
  rw [hval]; nlinarith

/-- The statements are about actual data: one observation of two at zero, in the modes and in the inspection. -/
example : ∃ ldlt : Matrix Unit Unit ℝ → Ldlt Unit,
    (∃ p, sincPredict "radial_only" ldlt (fun _ => 0) (fun _ => 2) (fun _ : Unit => 0) = some p ∧
      p.mean () = 2 * 10000 / 10001) ∧
    ∀ features j, (inspectConstantTerm ldlt (fun _ => 0) (fun _ => 2) features).covariance j j < 100 ^ 2 := by
  obtain ⟨ldlt, hl⟩ := exists_ldlt Unit
  refine ⟨ldlt, ?_, fun features j => ((C131_inspection ldlt hl _ _ (Function.injective_of_subsingleton _)
    features).2.2 j).2.2 ⟨()⟩⟩
  obtain ⟨p, h1, h2, -⟩ := C131_prediction_partial "radial_only" (.inl rfl) ldlt hl (fun _ : Unit => (0 : ℝ)) (fun _ => 2)
    (Function.injective_of_subsingleton _) fun _ : Unit => 0
  refine ⟨p, h1, ?_⟩
  rw [h2]
  have hk : sincKernel "radial_only" 0 0 = 10000 := by simp [sincKernel]; norm_num
  have : ((of fun _ _ : Unit => sincKernel "radial_only" 0 0) + 1 : Matrix Unit Unit ℝ)⁻¹ = of fun _ _ => 1 / 10001 := by
    refine inv_eq_right_inv ?_
    ext i j
    simp [Matrix.mul_apply, hk]
    norm_num
  rw [this]
  simp [mulVec, dotProduct, hk]
  norm_num

end Albatross

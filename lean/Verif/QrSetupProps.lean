import Verif.QrSetup
import Verif.Objects
import Mathlib.Tactic.Linarith
import Mathlib.Tactic.Positivity
import Mathlib.Tactic.NormNum

/-! # Thread counts (C105) and the pivot threshold of the sparse QR (C106) -/

namespace Albatross

/-! ## C105 -/

/-- C105: a pool made for `n` threads runs `n`; the default `0` stands for the threads of the machine, and for one
where that is unknown.  There is no pool at all exactly for `n = 1`. -/
theorem C105_count (hardware n : Nat) :
    (0 < n → getThreadCount (makeSharedThreadPool hardware n) = n) ∧
    (0 < hardware → getThreadCount (makeSharedThreadPool hardware 0) = hardware) ∧
    getThreadCount (makeSharedThreadPool 0 0) = 1 ∧
    (makeSharedThreadPool hardware n = none ↔ n = 1) := by
  unfold makeSharedThreadPool defaultThreadCount
  refine ⟨fun h => ?_, fun h => ?_, rfl, ?_⟩
  · split
    · next h1 => rw [h1]; rfl
    · rw [if_neg (by omega)]; rfl
  · simp only [getThreadCount]
    simp
    omega
  · split
    · next h1 => simp [h1]
    · next h1 =>
      simp only [h1, iff_false]
      split <;> simp

/-- C105: calls are made one after the other exactly when the pool counts for one thread. -/
theorem C105_serial (hardware n : Nat) :
    shouldSerialApply (makeSharedThreadPool hardware n) = true ↔
      getThreadCount (makeSharedThreadPool hardware n) = 1 := by
  unfold makeSharedThreadPool defaultThreadCount
  split
  · simp [shouldSerialApply, getThreadCount]
  · split
    · simp only [shouldSerialApply, getThreadCount, decide_eq_true_eq]; omega
    · simp only [shouldSerialApply, getThreadCount, decide_eq_true_eq]; omega

/-- C105: saving and loading a pool that was made this way keeps its thread count. -/
theorem C105_saved (hardware n : Nat) :
    getThreadCount (loadThreadPool (saveThreadPool (makeSharedThreadPool hardware n))) =
      getThreadCount (makeSharedThreadPool hardware n) := by
  have key : ∀ p : Option Nat, 0 < getThreadCount p → getThreadCount (loadThreadPool (saveThreadPool p)) =
      getThreadCount p := by
    rintro (_ | t) ht
    · rfl
    · show getThreadCount (loadThreadPool t) = t
      have ht' : 0 < t := ht
      unfold loadThreadPool
      split
      · next h => show 1 = t; omega
      · rfl
  apply key
  by_cases hn : n = 0
  · subst hn
    by_cases hh : hardware = 0
    · subst hh; rw [(C105_count 0 0).2.2.1]; norm_num
    · rw [(C105_count hardware 0).2.1 (by omega)]; omega
  · rw [(C105_count hardware n).1 (by omega)]; omega

/-- C105: the sparse QR is told the number of threads of the pool, except without a pool. -/
theorem C105_spqr_threads_partial (hardware n : Nat) (old : Int) (hn : n ≠ 1) (hn' : n < 2 ^ 31)
    (hh : hardware < 2 ^ 31) :
    spqrSetThreads old (makeSharedThreadPool hardware n) = getThreadCount (makeSharedThreadPool hardware n) := by
  have key : ∀ t : Nat, t < 2 ^ 31 → sizeToInt t = t := by
    intro t ht
    have h1 : t % 2 ^ 32 = t := Nat.mod_eq_of_lt (by omega)
    unfold sizeToInt
    rw [h1, if_pos ht]
  unfold makeSharedThreadPool defaultThreadCount
  rw [if_neg hn]
  split
  · exact key _ (by omega)
  · exact key _ hn'

/-- C105 fails for a single thread: the QR keeps whatever number of threads it had. -/
theorem C105_spqr_threads_false : ¬ ∀ (hardware n : Nat) (old : Int), n < 2 ^ 31 → hardware < 2 ^ 31 →
    spqrSetThreads old (makeSharedThreadPool hardware n) = getThreadCount (makeSharedThreadPool hardware n) := by
  intro h
  have := h 8 1 0 (by norm_num) (by norm_num)
  simp [makeSharedThreadPool, spqrSetThreads, getThreadCount] at this

/-- The cast to `int` changes large counts. -/
theorem C105_cast : spqrSetThreads 0 (some (2 ^ 31)) = -2 ^ 31 ∧ spqrSetThreads 0 (some (2 ^ 32)) = 0 := by
  constructor <;> decide

example : getThreadCount (makeSharedThreadPool 8 3) = 3 ∧ makeSharedThreadPool 8 1 = none ∧
    makeSharedThreadPool 8 0 = some 8 := by decide

/-! ## C106 -/

/-- The largest of some numbers. -/
def IsLargest (norms : List ℝ) (m : ℝ) : Prop := m ∈ norms ∧ ∀ x ∈ norms, x ≤ m

/-- SuiteSparseQR's own threshold for a matrix with this largest column norm. -/
noncomputable def suiteSparseDefault (rows cols : Nat) (largest : ℝ) : ℝ :=
  20 * ((rows : ℝ) + cols) * largest * (1 / 2 ^ 52)

theorem maxColumnNorm_fin (norms : List ℝ) : ∀ a : ℝ,
    (norms.map Dbl.fin).foldl (fun m x => if m < x then x else m) (.fin a) = .fin (norms.foldl max a) := by
  induction norms with
  | nil => intro a; rfl
  | cons x norms ih =>
    intro a
    rw [List.map_cons, List.foldl_cons, List.foldl_cons]
    have : (if Dbl.fin a < Dbl.fin x then Dbl.fin x else Dbl.fin a) = Dbl.fin (max a x) := by
      by_cases h : a < x
      · rw [if_pos (show Dbl.fin a < Dbl.fin x from h), max_eq_right h.le]
      · rw [if_neg (show ¬ Dbl.fin a < Dbl.fin x from h), max_eq_left (not_lt.1 h)]
    rw [this, ih]

theorem foldl_max_norm_spec (norms : List ℝ) : ∀ a : ℝ, a ≤ norms.foldl max a ∧ (∀ x ∈ norms, x ≤ norms.foldl max a) ∧
    (norms.foldl max a = a ∨ norms.foldl max a ∈ norms) := by
  induction norms with
  | nil => intro a; exact ⟨le_refl a, by simp, .inl rfl⟩
  | cons x norms ih =>
    intro a
    obtain ⟨h1, h2, h3⟩ := ih (max a x)
    rw [List.foldl_cons]
    refine ⟨(le_max_left a x).trans h1, ?_, ?_⟩
    · intro y hy
      rcases List.mem_cons.1 hy with rfl | hy
      · exact (le_max_right a y).trans h1
      · exact h2 y hy
    · rcases h3 with h3 | h3
      · rcases max_choice a x with h4 | h4
        · exact .inl (h3.trans h4)
        · exact .inr (by rw [h3, h4]; simp)
      · exact .inr (by simp [h3])

theorem maxColumnNorm_largest {norms : List ℝ} {m : ℝ} (h : IsLargest norms m) (hm : 0 ≤ m) :
    maxColumnNorm (norms.map Dbl.fin) = .fin m := by
  rw [maxColumnNorm, maxColumnNorm_fin]
  obtain ⟨h1, h2, h3⟩ := foldl_max_norm_spec norms 0
  congr 1
  apply le_antisymm
  · rcases h3 with h3 | h3
    · rw [h3]; exact hm
    · exact h.2 _ h3
  · exact h2 m h.1

/-- C106: below the size limit in either direction the threshold is 1e-15 whatever the matrix holds. -/
theorem C106_small (rows : Nat) (norms : List Dbl) (minSize : Int) (coefficient : Dbl)
    (h : (rows : Int) < minSize ∨ (norms.length : Int) < minSize) :
    spqrPivotThreshold rows norms minSize coefficient = .fin (1 / 10 ^ 15) := by
  rw [spqrPivotThreshold, if_pos h]

/-- C106: from the limit on, the threshold is SuiteSparseQR's with the factor 20 replaced by the coefficient. -/
theorem C106_large (rows : Nat) (norms : List ℝ) (minSize : Int) (c m : ℝ) (hr : minSize ≤ rows)
    (hc : minSize ≤ norms.length) (hm : IsLargest norms m) (hpos : 0 < m) :
    spqrPivotThreshold rows (norms.map Dbl.fin) minSize (.fin c) =
      .fin (c / 20 * suiteSparseDefault rows norms.length m) := by
  rw [spqrPivotThreshold, List.length_map, if_neg (by omega), maxColumnNorm_largest hm hpos.le]
  dsimp only
  rw [if_neg (by rw [Dbl.fin.injEq]; exact hpos.ne')]
  show Dbl.fin _ = _
  rw [Dbl.fin.injEq, suiteSparseDefault]
  ring

/-- C106: a large matrix of zeros counts as one with norm one. -/
theorem C106_zero (rows cols : Nat) (minSize : Int) (c : ℝ) (hr : minSize ≤ rows) (hc : minSize ≤ cols) :
    spqrPivotThreshold rows (List.replicate cols (.fin 0)) minSize (.fin c) =
      .fin (c / 20 * suiteSparseDefault rows cols 1) := by
  have hmax : maxColumnNorm (List.replicate cols (.fin 0)) = .fin 0 := by
    have : List.replicate cols (Dbl.fin 0) = (List.replicate cols (0 : ℝ)).map Dbl.fin := by
      rw [List.map_replicate]
    rw [maxColumnNorm, this, maxColumnNorm_fin]
    obtain ⟨-, -, h3⟩ := foldl_max_norm_spec (List.replicate cols (0 : ℝ)) 0
    congr 1
    rcases h3 with h3 | h3
    · exact h3
    · exact List.eq_of_mem_replicate h3
  rw [spqrPivotThreshold, List.length_replicate, if_neg (by omega), hmax]
  dsimp only
  rw [if_pos rfl]
  show Dbl.fin _ = _
  rw [Dbl.fin.injEq, suiteSparseDefault]
  ring

/-- C106: columns whose norm is not a number are passed over. -/
theorem C106_nan (rows : Nat) (before after : List Dbl) (minSize : Int) (c : Dbl) :
    spqrPivotThreshold rows (before ++ .nan :: after) minSize c =
      spqrPivotThreshold rows (before ++ .fin 0 :: after) minSize c := by
  have hmax : maxColumnNorm (before ++ .nan :: after) = maxColumnNorm (before ++ .fin 0 :: after) := by
    unfold maxColumnNorm
    rw [List.foldl_append, List.foldl_append, List.foldl_cons, List.foldl_cons]
    have hinv : ∀ (l : List Dbl) (a : Dbl), ¬ a < .fin 0 → a ≠ .nan →
        ¬ l.foldl (fun m x => if m < x then x else m) a < .fin 0 ∧
          l.foldl (fun m x => if m < x then x else m) a ≠ .nan := by
      intro l
      induction l with
      | nil => intro a h1 h2; exact ⟨h1, h2⟩
      | cons x l ih =>
        intro a h1 h2
        rw [List.foldl_cons]
        by_cases hx : a < x
        · rw [if_pos hx]
          refine ih x ?_ ?_
          · intro h3
            apply h1
            clear ih h1
            cases a <;> cases x <;> first
              | exact lt_trans (show (_ : ℝ) < _ from hx) (show (_ : ℝ) < _ from h3)
              | exact trivial
              | exact h3.elim
              | exact hx.elim
          · rintro rfl
            cases a <;> simp [LT.lt, Dbl.lt] at hx
        · rw [if_neg hx]; exact ih a h1 h2
    obtain ⟨h1, h2⟩ := hinv before (.fin 0) (lt_irrefl (0 : ℝ)) (by simp)
    rw [if_neg h1, if_neg]
    intro h3
    revert h3
    generalize before.foldl (fun m x => if m < x then x else m) (.fin 0) = a
    cases a <;> simp [LT.lt, Dbl.lt]
  unfold spqrPivotThreshold
  rw [hmax]
  simp

/-- C106: the threshold of a large matrix follows its scale. -/
theorem C106_scales_partial (rows : Nat) (norms : List ℝ) (minSize : Int) (c m s t : ℝ) (hr : minSize ≤ rows)
    (hc : minSize ≤ norms.length) (hm : IsLargest norms m) (hpos : 0 < m) (hs : 0 < s)
    (ht : spqrPivotThreshold rows (norms.map Dbl.fin) minSize (.fin c) = .fin t) :
    spqrPivotThreshold rows ((norms.map fun x => s * x).map Dbl.fin) minSize (.fin c) = .fin (s * t) := by
  have hm' : IsLargest (norms.map fun x => s * x) (s * m) := by
    refine ⟨List.mem_map.2 ⟨m, hm.1, rfl⟩, fun x hx => ?_⟩
    obtain ⟨y, hy, rfl⟩ := List.mem_map.1 hx
    exact mul_le_mul_of_nonneg_left (hm.2 y hy) hs.le
  rw [C106_large rows norms minSize c m hr hc hm hpos, Dbl.fin.injEq] at ht
  rw [C106_large rows _ minSize c (s * m) hr (by rwa [List.length_map]) hm' (mul_pos hs hpos), Dbl.fin.injEq,
    List.length_map, ← ht, suiteSparseDefault, suiteSparseDefault]
  ring

/-- C106: with the default coefficient a large matrix gets a threshold two hundred times smaller than
SuiteSparseQR's. -/
theorem C106_tighter_partial (oldThreads : Int) (rows : Nat) (norms : List ℝ) (m : ℝ) (pool : Option Nat)
    (hr : 300 ≤ rows) (hc : 300 ≤ norms.length) (hm : IsLargest norms m) (hpos : 0 < m) :
    (spqrCreate oldThreads rows (norms.map Dbl.fin) pool).2 =
      .fin (suiteSparseDefault rows norms.length m / 200) := by
  have := C106_large rows norms kMinSparsePivotSize (1 / 10) m (by unfold kMinSparsePivotSize; omega)
    (by unfold kMinSparsePivotSize; omega) hm hpos
  rw [spqrCreate, kSPQRPivotCoefficient, this, Dbl.fin.injEq]
  ring

/-- C106 fails for small matrices: the fixed threshold does not follow the scale.  For a small multiple of the
identity it is larger than SuiteSparseQR's default and than every column, so that no column counts as independent. -/
theorem C106_small_false : ∃ norms : List ℝ, 0 < norms.length ∧ (∀ x ∈ norms, 0 < x) ∧
    ∃ t, (spqrCreate 0 norms.length (norms.map Dbl.fin) none).2 = .fin t ∧ (∀ x ∈ norms, x < t) ∧
      ∀ m, IsLargest norms m → suiteSparseDefault norms.length norms.length m < t ∧
        ∀ s, s * m = 1 → (spqrCreate 0 norms.length ((norms.map fun x => s * x).map Dbl.fin) none).2 = .fin t := by
  refine ⟨[1 / 10 ^ 16, 1 / 10 ^ 16], by simp, ?_, 1 / 10 ^ 15, ?_, ?_, fun m hm => ⟨?_, fun s _ => ?_⟩⟩
  · intro x hx
    rw [List.eq_of_mem_replicate (n := 2) (a := 1 / 10 ^ 16) hx]; positivity
  · have := C106_small 2 ([1 / 10 ^ 16, 1 / 10 ^ 16].map Dbl.fin) kMinSparsePivotSize kSPQRPivotCoefficient
      (.inl (show ((2 : Nat) : Int) < 300 by norm_num))
    exact this
  · intro x hx
    rw [List.eq_of_mem_replicate (n := 2) (a := 1 / 10 ^ 16) hx]; norm_num
  · have := hm.1
    rw [List.eq_of_mem_replicate (n := 2) (a := 1 / 10 ^ 16) this, suiteSparseDefault]
    norm_num
  · have := C106_small 2 (([1 / 10 ^ 16, 1 / 10 ^ 16].map fun x => s * x).map Dbl.fin) kMinSparsePivotSize
      kSPQRPivotCoefficient (.inl (show ((2 : Nat) : Int) < 300 by norm_num))
    exact this

example : IsLargest (List.replicate 300 (2 : ℝ)) 2 ∧ (300 : Int) ≤ (List.replicate 300 (2 : ℝ)).length := by
  refine ⟨⟨List.mem_replicate.2 ⟨by norm_num, rfl⟩, fun x hx => ?_⟩, by rw [List.length_replicate]; norm_num⟩
  rw [List.eq_of_mem_replicate hx]

end Albatross

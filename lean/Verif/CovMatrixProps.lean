import Verif.CovMatrix
import Verif.AsyncProps
import Mathlib.Tactic.Linarith
import Mathlib.Tactic.FieldSimp
import Mathlib.Tactic.Ring
import Mathlib.Algebra.Order.Round

/-! # Covariance matrices, serial and threaded: C18, C19 -/

namespace Albatross

variable {X Y R : Type}

section helpers

theorem cellWrites_ok (caller : X → Y → R) (xs : List X) (ys : List Y) (cells : List (Nat × Nat))
    (h : ∀ rc ∈ cells, rc.1 < xs.length ∧ rc.2 < ys.length) :
    ∃ ws, cellWrites caller xs ys cells = .ok ws ∧ ws.map Prod.fst = cells ∧
      ∀ w ∈ ws, ∃ (h1 : w.1.1 < xs.length) (h2 : w.1.2 < ys.length),
        w.2 = caller xs[w.1.1] ys[w.1.2] := by
  induction cells with
  | nil => exact ⟨[], rfl, rfl, by simp⟩
  | cons rc cells ih =>
    obtain ⟨ws, h1, h2, h3⟩ := ih fun x hx => h x (List.mem_cons_of_mem _ hx)
    obtain ⟨hr, hc⟩ := h rc (by simp)
    refine ⟨(rc, caller xs[rc.1] ys[rc.2]) :: ws, ?_, by simp [h2], ?_⟩
    · unfold cellWrites at h1 ⊢
      rw [List.mapM_cons, vecGet_lt hr, vecGet_lt hc, h1]
      rfl
    · intro w hw
      rcases List.mem_cons.1 hw with rfl | hw
      · exact ⟨hr, hc, rfl⟩
      · exact h3 w hw

theorem writeAll_mem {L V : Type} [DecidableEq L] (ws : List (L × V)) :
    ∀ (m : L → V) (l : L), l ∈ ws.map Prod.fst → ∃ v, (l, v) ∈ ws ∧ writeAll m ws l = v := by
  induction ws with
  | nil => intro m l h; simp at h
  | cons w ws ih =>
    intro m l h
    change ∃ v, _ ∧ writeAll (writeMem m w) ws l = v
    by_cases hl : l ∈ ws.map Prod.fst
    · obtain ⟨v, h1, h2⟩ := ih (writeMem m w) l hl
      exact ⟨v, List.mem_cons_of_mem _ h1, h2⟩
    · rw [List.map_cons, List.mem_cons] at h
      have hlw : l = w.1 := h.resolve_right hl
      refine ⟨w.2, by rw [hlw]; simp, ?_⟩
      rw [writeAll_of_not_mem ws _ l hl]
      simp [writeMem, hlw]

/-- Reading back cells after cell writes. -/
theorem writeAll_cells (caller : X → Y → R) (xs : List X) (ys : List Y)
    (ws : List ((Nat × Nat) × R))
    (h : ∀ w ∈ ws, ∃ (h1 : w.1.1 < xs.length) (h2 : w.1.2 < ys.length),
        w.2 = caller xs[w.1.1] ys[w.1.2]) (m : Nat × Nat → R) (i j : Nat)
    (hij : (i, j) ∈ ws.map Prod.fst) (hi : i < xs.length) (hj : j < ys.length) :
    writeAll m ws (i, j) = caller xs[i] ys[j] := by
  obtain ⟨v, h1, h2⟩ := writeAll_mem ws m (i, j) hij
  obtain ⟨_, _, h3⟩ := h _ h1
  rw [h2]; exact h3

theorem mapM_const_ok {α ε : Type} (f : α → Except ε Unit) (xs : List α) (h : ∀ x ∈ xs, f x = .ok ()) :
    ∃ r, xs.mapM f = .ok r := by
  induction xs with
  | nil => exact ⟨[], rfl⟩
  | cons x xs ih =>
    obtain ⟨r, hr⟩ := ih fun y hy => h y (List.mem_cons_of_mem _ hy)
    refine ⟨() :: r, ?_⟩
    rw [List.mapM_cons, h x (by simp), hr]
    rfl

/-- A pooled call of cell tasks whose cells are all in range and pairwise disjoint. -/
theorem pooled_cells {B : Type} (caller : X → Y → R) (xs : List X) (ys : List Y)
    (cells : B → List (Nat × Nat)) (blocks : List B) (T : Nat)
    (hin : ∀ b ∈ blocks, ∀ rc ∈ cells b, rc.1 < xs.length ∧ rc.2 < ys.length)
    (hdisj : blocks.Pairwise fun a b => ∀ rc ∈ cells a, rc ∉ cells b)
    (m : Nat × Nat → R) (s : PoolState (Nat × Nat) R Fault Unit)
    (h : PoolReach (applyVectorCall (fun b => cellTask (cellWrites caller xs ys (cells b))) blocks T)
      m s) (r : Except Fault (List Unit)) (ho : s.outcome = some r) :
    (∃ out, r = .ok out) ∧
    ∀ b ∈ blocks, ∀ i j, (i, j) ∈ cells b → ∀ (hi : i < xs.length) (hj : j < ys.length),
      s.mem (i, j) = caller xs[i] ys[j] := by
  have htask : ∀ b ∈ blocks, ∃ ws, cellTask (cellWrites caller xs ys (cells b)) = ⟨ws, .ok ()⟩ ∧
      ws.map Prod.fst = cells b ∧ ∀ w ∈ ws, ∃ (h1 : w.1.1 < xs.length) (h2 : w.1.2 < ys.length),
        w.2 = caller xs[w.1.1] ys[w.1.2] := by
    intro b hb
    obtain ⟨ws, h1, h2, h3⟩ := cellWrites_ok caller xs ys (cells b) (hin b hb)
    exact ⟨ws, by rw [h1]; rfl, h2, h3⟩
  have hr := C17_apply_serial _ blocks T m s h r ho
  obtain ⟨out, hout⟩ := mapM_const_ok
    (fun b => (cellTask (cellWrites caller xs ys (cells b))).result) blocks (by
      intro b hb
      obtain ⟨ws, h1, -⟩ := htask b hb
      simp only [h1])
  rw [applySerial, hout] at hr
  subst hr
  refine ⟨⟨out, rfl⟩, ?_⟩
  intro b hb i j hij hi hj
  have hmem := C17_apply_memory _ blocks T (by
    refine List.Pairwise.imp_of_mem ?_ hdisj
    intro a c ha hc hac l hl hl'
    obtain ⟨ws, h1, h2, -⟩ := htask a ha
    obtain ⟨ws', h1', h2', -⟩ := htask c hc
    rw [h1] at hl; rw [h1'] at hl'
    simp only [h2, h2'] at hl hl'
    exact hac l hl hl') m s h out ho
  rw [hmem]
  apply writeAll_cells caller xs ys
  · intro w hw
    rw [List.mem_flatten] at hw
    obtain ⟨l, hl, hwl⟩ := hw
    obtain ⟨a, ha, rfl⟩ := List.mem_map.1 hl
    obtain ⟨ws, h1, -, h3⟩ := htask a ha
    rw [h1] at hwl
    exact h3 w hwl
  · obtain ⟨ws, h1, h2, -⟩ := htask b hb
    rw [← h2, List.mem_map] at hij
    obtain ⟨w, hw, hwe⟩ := hij
    rw [List.mem_map]
    refine ⟨w, List.mem_flatten.2 ⟨ws, List.mem_map.2 ⟨b, hb, by rw [h1]⟩, hw⟩, hwe⟩

end helpers

/-! ## C18 -/

/-- C18: every column belongs to exactly one block. -/
theorem C18_blocks_cover (n T col : Nat) (hT : 0 < T) (hc : col < n) :
    ∃ b, b < T ∧ col ∈ crossBlockCols n T b ∧
      ∀ b', b' < T → col ∈ crossBlockCols n T b' → b' = b := by
  have hs : n ≤ T * crossBlockSize n T := by
    unfold crossBlockSize
    have := Nat.div_add_mod (n + T - 1) T
    have := Nat.mod_lt (n + T - 1) hT
    omega
  have hpos : 0 < crossBlockSize n T := by
    rcases Nat.eq_zero_or_pos (crossBlockSize n T) with h | h
    · rw [h] at hs; omega
    · exact h
  have hmem : ∀ b, col ∈ crossBlockCols n T b ↔ b = col / crossBlockSize n T := by
    intro b
    simp only [crossBlockCols, List.mem_range'_1]
    rw [eq_comm, Nat.div_eq_iff hpos]
    generalize crossBlockSize n T = s at *
    have : (b + 1) * s = b * s + s := by ring
    omega
  refine ⟨col / crossBlockSize n T, ?_, (hmem _).2 rfl, fun b' _ h => (hmem b').1 h⟩
  rw [Nat.div_lt_iff_lt_mul hpos]
  omega

/-- C18, serial. -/
theorem C18_cross_serial (caller : X → Y → R) (xs : List X) (ys : List Y) (u : Nat × Nat → R) :
    ∃ M, serialCross caller xs ys u = .ok M ∧
      ∀ i j (hi : i < xs.length) (hj : j < ys.length), M (i, j) = caller xs[i] ys[j] := by
  obtain ⟨ws, h1, h2, h3⟩ := cellWrites_ok caller xs ys
    ((List.range xs.length).flatMap fun i => (List.range ys.length).map fun j => (i, j)) (by
      intro rc hrc
      simp only [List.mem_flatMap, List.mem_range, List.mem_map] at hrc
      obtain ⟨i, hi, j, hj, rfl⟩ := hrc
      exact ⟨hi, hj⟩)
  refine ⟨writeAll u ws, by rw [serialCross, h1]; rfl, fun i j hi hj => ?_⟩
  apply writeAll_cells caller xs ys ws h3
  rw [h2]
  simp only [List.mem_flatMap, List.mem_range, List.mem_map]
  exact ⟨i, hi, j, hj, rfl⟩

/-- C18, threaded: for every schedule, thread count and initial contents of the buffer, the call does
not throw and when it has returned every entry is the covariance of the corresponding features. -/
theorem C18_cross_threaded (caller : X → Y → R) (xs : List X) (ys : List Y) (T : Nat) (hT : 0 < T)
    (u : Nat × Nat → R) (s : PoolState (Nat × Nat) R Fault Unit)
    (h : PoolReach (crossCall caller xs ys T) u s) (r : Except Fault (List Unit))
    (ho : s.outcome = some r) :
    (∃ out, r = .ok out) ∧
    ∀ i j (hi : i < xs.length) (hj : j < ys.length), s.mem (i, j) = caller xs[i] ys[j] := by
  have hcol : ∀ b col, col ∈ crossBlockCols ys.length T b → col < ys.length := by
    intro b col hc
    simp only [crossBlockCols, List.mem_range'_1] at hc
    omega
  obtain ⟨h1, h2⟩ := pooled_cells caller xs ys
    (fun b => (crossBlockCols ys.length T b).flatMap fun col =>
      (List.range xs.length).map fun row => (row, col)) (List.range T) T (by
    intro b _ rc hrc
    simp only [List.mem_flatMap, List.mem_range, List.mem_map] at hrc
    obtain ⟨col, hcm, row, hr, rfl⟩ := hrc
    exact ⟨hr, hcol b col hcm⟩) (by
    rw [List.pairwise_iff_getElem]
    intro i j hi hj hij rc hrc hrc'
    simp only [List.getElem_range] at hrc hrc'
    simp only [List.mem_flatMap, List.mem_range, List.mem_map] at hrc hrc'
    obtain ⟨col, hcm, row, hr, rfl⟩ := hrc
    obtain ⟨col', hcm', row', hr', heq⟩ := hrc'
    simp only [Prod.mk.injEq] at heq
    obtain ⟨rfl, rfl⟩ := heq
    simp only [List.length_range] at hi hj
    obtain ⟨b, -, -, hu⟩ := C18_blocks_cover ys.length T col' hT (hcol i col' hcm)
    have := hu i hi hcm
    have := hu j hj hcm'
    omega) u s h r ho
  refine ⟨h1, fun i j hi hj => ?_⟩
  obtain ⟨b, hb, hcm, -⟩ := C18_blocks_cover ys.length T j hT hj
  refine h2 b (List.mem_range.2 hb) i j ?_ hi hj
  simp only [List.mem_flatMap, List.mem_range, List.mem_map]
  exact ⟨j, hcm, i, hi, rfl⟩

/-- C18: threaded and serial results agree entry by entry. -/
theorem C18_cross_threads_agree (caller : X → Y → R) (xs : List X) (ys : List Y) (T : Nat)
    (hT : 0 < T) (u u' : Nat × Nat → R) (s : PoolState (Nat × Nat) R Fault Unit)
    (h : PoolReach (crossCall caller xs ys T) u s) (r : Except Fault (List Unit))
    (ho : s.outcome = some r) (M : Nat × Nat → R) (hM : serialCross caller xs ys u' = .ok M) :
    ∀ i j, i < xs.length → j < ys.length → s.mem (i, j) = M (i, j) := by
  intro i j hi hj
  obtain ⟨M', h1, h2⟩ := C18_cross_serial caller xs ys u'
  rw [hM] at h1
  cases h1
  rw [h2 i j hi hj, (C18_cross_threaded caller xs ys T hT u s h r ho).2 i j hi hj]

/-! ## C19 -/

section helpers

theorem endFraction_eq (k : Nat) (hk : 0 < k) (b : Nat) :
    endFraction k b = Real.sqrt ((b + 1 : ℕ) / k) := by
  have hk' : (0 : ℝ) < k := by exact_mod_cast hk
  induction b with
  | zero => simp [endFraction]
  | succ b ih =>
    rw [endFraction, ih, Real.mul_self_sqrt (by positivity)]
    congr 1
    push_cast
    ring

end helpers

/-- What is required of the rounding function `rint`: a nearest integer, monotone. -/
structure IsRint (rint : ℝ → Nat) : Prop where
  near : ∀ x, 0 ≤ x → |(rint x : ℝ) - x| ≤ 1 / 2
  mono : Monotone rint

/-- What is required of the fractions, as computed in floating point: non-negative, non-decreasing,
and the last one close enough to 1 that `size * fraction` rounds to `size`. -/
structure GoodFractions (frac : Nat → ℝ) (size k : Nat) : Prop where
  nonneg : ∀ b, 0 ≤ frac b
  mono : ∀ b, b + 1 < k → frac b ≤ frac (b + 1)
  last : |size * frac (k - 1) - size| < 1 / 2

/-- In exact arithmetic the fractions meet the requirement. -/
theorem C19_exact_fractions (size k : Nat) (hk : 0 < k) : GoodFractions (endFraction k) size k where
  nonneg b := by rw [endFraction_eq k hk]; exact Real.sqrt_nonneg _
  mono b _ := by
    rw [endFraction_eq k hk, endFraction_eq k hk]
    apply Real.sqrt_le_sqrt
    gcongr
    simp
  last := by
    have hk' : (k : ℝ) ≠ 0 := by exact_mod_cast hk.ne'
    rw [endFraction_eq k hk, Nat.sub_add_cancel hk, div_self hk']
    simp

section helpers

theorem blockEnd_last {rint : ℝ → Nat} (hr : IsRint rint) {frac : Nat → ℝ} {size k : Nat}
    (hf : GoodFractions frac size k) : blockEnd rint frac size (k - 1) = size := by
  have h1 := hr.near (size * frac (k - 1)) (mul_nonneg (Nat.cast_nonneg _) (hf.nonneg _))
  have h2 := hf.last
  unfold blockEnd
  have h3 : |((rint (size * frac (k - 1)) : ℕ) : ℝ) - (size : ℝ)| < 1 := by
    have := abs_sub_le ((rint (size * frac (k - 1)) : ℕ) : ℝ) (size * frac (k - 1)) (size : ℝ)
    linarith
  rw [abs_lt] at h3
  have h4 : (rint (size * frac (k - 1)) : ℝ) < (size : ℝ) + 1 := by linarith
  have h5 : (size : ℝ) < (rint (size * frac (k - 1)) : ℝ) + 1 := by linarith
  have h4' : rint (size * frac (k - 1)) < size + 1 := by exact_mod_cast h4
  have h5' : size < rint (size * frac (k - 1)) + 1 := by exact_mod_cast h5
  omega

theorem blockEnd_mono {rint : ℝ → Nat} (hr : IsRint rint) {frac : Nat → ℝ} {size k : Nat}
    (hf : GoodFractions frac size k) (b c : Nat) (hbc : b ≤ c) (hc : c < k) :
    blockEnd rint frac size b ≤ blockEnd rint frac size c := by
  induction c, hbc using Nat.le_induction with
  | base => exact le_rfl
  | succ c hbc ih =>
    refine (ih (by omega)).trans (hr.mono ?_)
    exact mul_le_mul_of_nonneg_left (hf.mono c hc) (Nat.cast_nonneg _)

theorem exists_block (ends : Nat → Nat) (k col : Nat) (hk : 0 < k) (hlast : col < ends (k - 1)) :
    ∃ b, b < k ∧ (if b = 0 then 0 else ends (b - 1)) ≤ col ∧ col < ends b := by
  have hex : ∃ b, b < k ∧ col < ends b := ⟨k - 1, by omega, hlast⟩
  obtain ⟨hb1, hb2⟩ := Nat.find_spec hex
  refine ⟨Nat.find hex, hb1, ?_, hb2⟩
  split
  · omega
  · next h0 =>
    have := Nat.find_min hex (show Nat.find hex - 1 < Nat.find hex by omega)
    by_contra hc
    exact this ⟨by omega, by omega⟩

end helpers

/-- C19: the triangular partition has one block per thread, all within the matrix, and every column
is in exactly one block. -/
theorem C19_partition_covers (rint : ℝ → Nat) (hr : IsRint rint) (frac : Nat → ℝ) (size k : Nat)
    (hk : 0 < k) (hf : GoodFractions frac size k) :
    ∃ blocks, partitionTriangular rint frac size k = .ok blocks ∧ blocks.length = k ∧
      (∀ b ∈ blocks, b.1 ≤ b.2 ∧ b.2 ≤ size) ∧
      (blocks.Pairwise fun a b => a.2 ≤ b.1) ∧
      ∀ col, col < size → ∃ b ∈ blocks, b.1 ≤ col ∧ col < b.2 := by
  have hlast := blockEnd_last hr hf
  have hmono := blockEnd_mono hr hf
  have hclip : ∀ b, b < k → (if b = k - 1 then min (blockEnd rint frac size b) size
      else blockEnd rint frac size b) = blockEnd rint frac size b := by
    intro b hb
    split
    · next h => subst h; rw [hlast]; simp
    · rfl
  unfold partitionTriangular
  rw [if_neg (by omega)]
  refine ⟨_, rfl, by simp, ?_, ?_, ?_⟩
  · intro b hb
    obtain ⟨i, hi, rfl⟩ := List.mem_map.1 hb
    rw [List.mem_range] at hi
    simp only [hclip i hi]
    constructor
    · split
      · omega
      · exact hmono _ _ (by omega) hi
    · have := hmono i (k - 1) (by omega) (by omega)
      omega
  · rw [List.pairwise_iff_getElem]
    intro i j hi hj hij
    simp only [List.length_map, List.length_range] at hi hj
    simp only [List.getElem_map, List.getElem_range, hclip i hi]
    rw [if_neg (by omega)]
    exact hmono _ _ (by omega) (by omega)
  · intro col hcol
    obtain ⟨b, h1, h2, h3⟩ := exists_block (blockEnd rint frac size) k col hk (by rw [hlast]; exact hcol)
    refine ⟨_, List.mem_map.2 ⟨b, List.mem_range.2 h1, rfl⟩, h2, ?_⟩
    simp only [hclip b h1]
    exact h3

/-- C19, serial: the entry at `(i, j)` is the value computed with the later feature first. -/
theorem C19_symmetric_serial (caller : X → X → R) (xs : List X) (u : Nat × Nat → R) :
    ∃ M, serialSymmetric caller xs u = .ok M ∧
      ∀ i j (hi : i < xs.length) (hj : j < xs.length),
        M (i, j) = if j ≤ i then caller xs[i] xs[j] else caller xs[j] xs[i] := by
  obtain ⟨ws, h1, h2, h3⟩ := cellWrites_ok caller xs xs
    ((List.range xs.length).flatMap fun i => (List.range (i + 1)).map fun j => (i, j)) (by
      intro rc hrc
      simp only [List.mem_flatMap, List.mem_range, List.mem_map] at hrc
      obtain ⟨i, hi, j, hj, rfl⟩ := hrc
      exact ⟨hi, by simp; omega⟩)
  have hle : ∀ w ∈ ws, w.1.2 ≤ w.1.1 := by
    intro w hw
    have : w.1 ∈ ws.map Prod.fst := List.mem_map_of_mem hw
    rw [h2] at this
    simp only [List.mem_flatMap, List.mem_range, List.mem_map] at this
    obtain ⟨i, hi, j, hj, he⟩ := this
    rw [← he]; simp; omega
  refine ⟨_, by rw [serialSymmetric, h1]; rfl, fun i j hi hj => ?_⟩
  have hcell : ∀ a c, c ≤ a → a < xs.length → (a, c) ∈ ws.map Prod.fst := by
    intro a c hca ha
    rw [h2]
    simp only [List.mem_flatMap, List.mem_range, List.mem_map]
    exact ⟨a, ha, c, by omega, rfl⟩
  have hin : (i, j) ∈ (ws.flatMap fun w => [w, ((w.1.2, w.1.1), w.2)]).map Prod.fst := by
    rw [List.mem_map]
    by_cases hji : j ≤ i
    · obtain ⟨w, hw, he⟩ := List.mem_map.1 (hcell i j hji hi)
      exact ⟨w, List.mem_flatMap.2 ⟨w, hw, by simp⟩, he⟩
    · obtain ⟨w, hw, he⟩ := List.mem_map.1 (hcell j i (by omega) hj)
      exact ⟨((w.1.2, w.1.1), w.2), List.mem_flatMap.2 ⟨w, hw, by simp⟩, by rw [he]⟩
  obtain ⟨v, hv, hM⟩ := writeAll_mem _ u (i, j) hin
  rw [hM]
  obtain ⟨w, hw, hwv⟩ := List.mem_flatMap.1 hv
  obtain ⟨⟨a, c⟩, v'⟩ := w
  have hca := hle _ hw
  obtain ⟨_, _, hval⟩ := h3 _ hw
  simp only [List.mem_cons, Prod.mk.injEq, List.not_mem_nil, or_false] at hwv hca hval
  rcases hwv with ⟨⟨rfl, rfl⟩, rfl⟩ | ⟨⟨rfl, rfl⟩, rfl⟩
  · rw [if_pos hca, hval]
  · by_cases heq : j ≤ i
    · have : i = j := by omega
      subst this
      simp [hval]
    · rw [if_neg heq, hval]

/-- C19, threaded: for every schedule the call does not throw, and after mirroring the entry at
`(i, j)` is the value computed with the earlier feature first. -/
theorem C19_symmetric_threaded (caller : X → X → R) (xs : List X) (rint : ℝ → Nat)
    (hr : IsRint rint) (frac : Nat → ℝ) (T : Nat) (hT : 0 < T)
    (hf : GoodFractions frac xs.length T) (blocks : List (Nat × Nat))
    (hb : partitionTriangular rint frac xs.length T = .ok blocks) (u : Nat × Nat → R)
    (s : PoolState (Nat × Nat) R Fault Unit) (h : PoolReach (triCall caller xs blocks T) u s)
    (r : Except Fault (List Unit)) (ho : s.outcome = some r) :
    (∃ out, r = .ok out) ∧
    ∀ i j (hi : i < xs.length) (hj : j < xs.length),
      mirrorUpper s.mem (i, j) = if j ≤ i then caller xs[j] xs[i] else caller xs[i] xs[j] := by
  obtain ⟨blocks', hb', -, hin, hpw, hcov⟩ := C19_partition_covers rint hr frac xs.length T hT hf
  rw [hb] at hb'
  cases hb'
  obtain ⟨h1, h2⟩ := pooled_cells caller xs xs
    (fun block : Nat × Nat => (List.range' block.1 (block.2 - block.1)).flatMap fun col =>
      (List.range (col + 1)).map fun row => (row, col)) blocks T (by
    intro b hbm rc hrc
    simp only [List.mem_flatMap, List.mem_range, List.mem_map, List.mem_range'_1] at hrc
    obtain ⟨col, hcm, row, hr, rfl⟩ := hrc
    have := hin b hbm
    simp only
    omega) (by
    refine hpw.imp ?_
    intro a b hab rc hrc hrc'
    simp only [List.mem_flatMap, List.mem_range, List.mem_map, List.mem_range'_1] at hrc hrc'
    obtain ⟨col, hcm, row, hr, rfl⟩ := hrc
    obtain ⟨col', hcm', row', hr', heq⟩ := hrc'
    simp only [Prod.mk.injEq] at heq
    omega) u s h r ho
  refine ⟨h1, fun i j hi hj => ?_⟩
  have hupper : ∀ a c (ha : a < xs.length) (hc : c < xs.length), a ≤ c →
      s.mem (a, c) = caller xs[a] xs[c] := by
    intro a c ha hc hac
    obtain ⟨b, hbm, hb1, hb2⟩ := hcov c hc
    refine h2 b hbm a c ?_ ha hc
    simp only [List.mem_flatMap, List.mem_range, List.mem_map, List.mem_range'_1]
    exact ⟨c, by omega, a, by omega, rfl⟩
  unfold mirrorUpper
  simp only
  split
  · next hle => exact hupper j i hj hi hle
  · next hle => exact hupper i j hi hj (by omega)

/-- C19: for a symmetric covariance function the serial and the threaded matrices are equal, and
entry `(i, j)` is the covariance of features `i` and `j`. -/
theorem C19_threads_agree (caller : X → X → R) (hsymm : ∀ x y, caller x y = caller y x) (xs : List X)
    (rint : ℝ → Nat) (hr : IsRint rint) (frac : Nat → ℝ) (T : Nat) (hT : 0 < T)
    (hf : GoodFractions frac xs.length T) (blocks : List (Nat × Nat))
    (hb : partitionTriangular rint frac xs.length T = .ok blocks) (u u' : Nat × Nat → R)
    (s : PoolState (Nat × Nat) R Fault Unit) (h : PoolReach (triCall caller xs blocks T) u s)
    (r : Except Fault (List Unit)) (ho : s.outcome = some r) (M : Nat × Nat → R)
    (hM : serialSymmetric caller xs u' = .ok M) :
    ∀ i j (hi : i < xs.length) (hj : j < xs.length),
      mirrorUpper s.mem (i, j) = caller xs[i] xs[j] ∧ M (i, j) = caller xs[i] xs[j] := by
  intro i j hi hj
  obtain ⟨M', h1, h2⟩ := C19_symmetric_serial caller xs u'
  rw [hM] at h1
  cases h1
  rw [h2 i j hi hj,
    (C19_symmetric_threaded caller xs rint hr frac T hT hf blocks hb u s h r ho).2 i j hi hj]
  constructor
  · split
    · exact hsymm _ _
    · rfl
  · split
    · rfl
    · exact hsymm _ _

/-- C19: for an asymmetric callable the two disagree in general: one schedule-independent
counterexample (two features, two threads). -/
theorem C19_asymmetric_differs (rint : ℝ → Nat) (hr : IsRint rint) (blocks : List (Nat × Nat))
    (hb : partitionTriangular rint (endFraction 2) 2 2 = .ok blocks) (u u' : Nat × Nat → Int)
    (s : PoolState (Nat × Nat) Int Fault Unit)
    (h : PoolReach (triCall (fun x y : Int => x - y) [1, 2] blocks 2) u s)
    (r : Except Fault (List Unit)) (ho : s.outcome = some r) (M : Nat × Nat → Int)
    (hM : serialSymmetric (fun x y : Int => x - y) [1, 2] u' = .ok M) :
    mirrorUpper s.mem (1, 0) = -1 ∧ M (1, 0) = 1 := by
  obtain ⟨M', h1, h2⟩ := C19_symmetric_serial (fun x y : Int => x - y) [1, 2] u'
  rw [hM] at h1
  cases h1
  have h3 := (C19_symmetric_threaded (fun x y : Int => x - y) [1, 2] rint hr (endFraction 2) 2
    (by omega) (C19_exact_fractions 2 2 (by omega)) blocks hb u s h r ho).2 1 0 (by decide) (by decide)
  rw [h2 1 0 (by decide) (by decide), h3]
  decide

/-! ## Non-vacuity -/

/-- Rounding half up is an admissible `rint`. -/
theorem isRint_round : IsRint fun x => (round x).toNat where
  near x hx := by
    have h0 : 0 ≤ round x := by rw [round_eq]; exact Int.floor_nonneg.2 (by linarith)
    have : (((round x).toNat : ℕ) : ℝ) = ((round x : ℤ) : ℝ) := by
      have : (((round x).toNat : ℕ) : ℤ) = round x := Int.toNat_of_nonneg h0
      exact_mod_cast congrArg (fun z : ℤ => (z : ℝ)) this
    rw [this, abs_sub_comm]
    exact abs_sub_round x
  mono x y h := by
    apply Int.toNat_le_toNat
    rw [round_eq, round_eq]
    exact Int.floor_le_floor (by linarith)

example : ∃ blocks, partitionTriangular (fun x => (round x).toNat) (endFraction 3) 10 3 = .ok blocks ∧
    blocks.length = 3 :=
  let ⟨b, h1, h2, _⟩ := C19_partition_covers _ isRint_round (endFraction 3) 10 3 (by omega)
    (C19_exact_fractions 10 3 (by omega))
  ⟨b, h1, h2⟩

example : crossBlockCols 5 3 0 = [0, 1] ∧ crossBlockCols 5 3 1 = [2, 3] ∧
    crossBlockCols 5 3 2 = [4] ∧ crossBlockCols 2 4 3 = [] := by decide

/-- The pooled cross covariance reaches a returning state (two threads, run one after the other). -/
example : ∃ s : PoolState (Nat × Nat) Nat Fault Unit,
    PoolReach (crossCall (fun x y : Nat => x * y) [2, 3] [5, 7] 2) (fun _ => 0) s ∧
    s.outcome = some (.ok [(), ()]) ∧ s.mem (1, 1) = 21 := by
  let c := crossCall (fun x y : Nat => x * y) [2, 3] [5, 7] 2
  let r0 : PoolReach c (fun _ => 0) _ := .init
  let r1 := r0.step (.enqueue (by decide))
  let r2 := r1.step (.enqueue (by decide))
  let r3 := r2.step (.start (by decide) (by decide))
  let r4 := r3.step (.start (by decide) (by decide))
  let r5 := r4.step (.write 1 ((0, 1), 14) _ rfl rfl)
  let r6 := r5.step (.write 0 ((0, 0), 10) _ rfl rfl)
  let r7 := r6.step (.write 1 ((1, 1), 21) _ rfl rfl)
  let r8 := r7.step (.finish 1 (crossTask (fun x y : Nat => x * y) [2, 3] [5, 7] 2 1) rfl rfl rfl)
  let r9 := r8.step (.write 0 ((1, 0), 15) _ rfl rfl)
  let r10 := r9.step (.finish 0 (crossTask (fun x y : Nat => x * y) [2, 3] [5, 7] 2 0) rfl rfl rfl)
  let r11 := r10.step (.get 0 [1] () rfl rfl rfl rfl)
  let r12 := r11.step (.get 1 [] () rfl rfl rfl rfl)
  let r13 := r12.step (.ret rfl rfl rfl)
  exact ⟨_, r13, rfl, rfl⟩

end Albatross

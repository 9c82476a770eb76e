import Verif.SamplerProps
import Verif.StretchWalkers

/-! # C120: the ensemble sampler leaves its target distribution invariant

The walkers are independent samples of the distribution whose log density is the objective, up to a
constant.  After a step of the sampler, and after every iteration of a chain, they are again. -/

namespace Albatross

open MeasureTheory Set

open scoped ENNReal

variable {d N : Nat}

/-! ## Specification -/

/-- The parameters as the code holds them. -/
def paramList (x : Fin d → ℝ) : List Dbl := List.ofFn fun i => Dbl.fin (x i)

/-- The objective is the logarithm of the density, and not finite where the density vanishes. -/
def IsLogDensity (objective : List Dbl → Dbl) (f : (Fin d → ℝ) → ℝ) : Prop :=
  ∀ x, (0 < f x → objective (paramList x) = .fin (Real.log (f x))) ∧
    (f x = 0 → (objective (paramList x)).isFinite = false)

/-- The states hold the walkers `X`. -/
def Holds (objective : List Dbl → Dbl) (states : List SamplerState) (X : Fin N → Fin d → ℝ) : Prop :=
  states.length = N ∧ ∀ i : Fin N, ∃ accepted,
    states[i.1]? = some ⟨paramList (X i), objective (paramList (X i)), accepted⟩

/-- The three draws of move `i` are decoded from the outputs `3 i`, `3 i + 1` and `3 i + 2`: the first
one selects an integer, the others are used as they are. -/
noncomputable def drawsInt (D : ℕ → Draws) : UniformInt where
  draw low high r := low + min ⌊Int.fract (D (r / 3)).1 * ((high - low : ℕ) + 1 : ℝ)⌋₊ (high - low)
  ge _ _ _ _ := Nat.le_add_right _ _
  le low high r h := by
    have := min_le_right ⌊Int.fract (D (r / 3)).1 * ((high - low : ℕ) + 1 : ℝ)⌋₊ (high - low)
    omega

/-- The same for the uniform distribution on `[0, 1)`. -/
noncomputable def drawsReal (D : ℕ → Draws) : UniformReal where
  draw r := Int.fract (if r % 3 = 1 then (D (r / 3)).2.1 else (D (r / 3)).2.2)
  ge _ := Int.fract_nonneg _
  lt _ := Int.fract_lt_one _

/-- Reading the parameters of the walkers off a list of states. -/
noncomputable def readWalkers (states : List SamplerState) : Fin N → Fin d → ℝ := fun i k =>
  match (states[i.1]?).bind fun s => s.params[k.1]? with
  | some (.fin v) => v
  | _ => 0

/-! ## One move of the code -/

theorem Holds.read {objective : List Dbl → Dbl} {states : List SamplerState} {X : Fin N → Fin d → ℝ}
    (h : Holds objective states X) : readWalkers states = X := by
  funext i k
  obtain ⟨acc, hs⟩ := h.2 i
  unfold readWalkers
  rw [hs]
  simp [paramList]

theorem Holds.good {objective : List Dbl → Dbl} {f : (Fin d → ℝ) → ℝ} {states : List SamplerState}
    {X : Fin N → Fin d → ℝ} (h : Holds objective states X) (hobj : IsLogDensity objective f)
    (hX : ∀ i, 0 < f (X i)) : ∀ s ∈ states, s.Good objective d := by
  intro s hs
  obtain ⟨i, hi⟩ := List.mem_iff_getElem?.1 hs
  have hlt : i < N := h.1 ▸ (List.getElem?_eq_some_iff.1 hi).1
  obtain ⟨acc, h2⟩ := h.2 ⟨i, hlt⟩
  rw [h2] at hi
  cases hi
  exact ⟨⟨_, (hobj _).1 (hX _)⟩, rfl, by simp [paramList]⟩

theorem zipWith_paramList (z : ℝ) (c x : Fin d → ℝ) :
    List.zipWith (stretchCoord (.fin z)) (paramList x) (paramList c) = paramList (nudgedY z c x) := by
  apply List.ext_getElem
  · simp [paramList]
  · intro i h1 h2
    simp only [paramList, List.getElem_zipWith, List.getElem_ofFn, stretchCoord, nudgedY, Dbl.fin_sub,
      Dbl.fin.injEq, Dbl.fin_mul, Dbl.fin_add]
    split <;> rfl

theorem stretchFactor_eq {a : ℝ} (ha : 1 < a) (p : ℝ) : stretchFactor a p = .fin (stretchZ a p) := by
  unfold stretchFactor stretchZ
  exact Dbl.fin_div (by linarith)

/-- The move of the code is the move of the specification. -/
theorem stretchResult_walk {objective : List Dbl → Dbl} {f : (Fin d → ℝ) → ℝ} (hobj : IsLogDensity objective f)
    (h0 : ∀ x, 0 ≤ f x) {a p r : ℝ} (ha : 1 < a) (hp : 0 ≤ p) (hr : 0 ≤ r) {x c : Fin d → ℝ} (hx : 0 < f x)
    (acc acc' : Bool) : ∃ accepted,
    stretchResult objective a ⟨paramList x, objective (paramList x), acc⟩
      ⟨paramList c, objective (paramList c), acc'⟩ p r =
      ⟨paramList (walk f a c x p r), objective (paramList (walk f a c x p r)), accepted⟩ := by
  have hz := stretchZ_pos ha hp
  unfold stretchResult
  simp only
  rw [stretchFactor_eq ha, zipWith_paramList, show (paramList x).length = d by simp [paramList]]
  set y := nudgedY (stretchZ a p) c x with hy
  have hlogz : (Dbl.fin (stretchZ a p)).log = .fin (Real.log (stretchZ a p)) := by
    show (if 0 < stretchZ a p then Dbl.fin (Real.log (stretchZ a p)) else _) = _
    rw [if_pos hz]
  rw [hlogz, (hobj x).1 hx, Dbl.fin_mul]
  have hwalk : walk f a c x p r = if r < stretchZ a p ^ ((d : ℝ) - 1) * f y / f x then y else x := rfl
  rcases (h0 y).eq_or_lt with hy0 | hy0
  · have hnf := (hobj y).2 hy0.symm
    rw [if_neg (by rw [hnf]; simp), hwalk, if_neg (by rw [← hy0]; simpa using hr)]
    exact ⟨false, by rw [(hobj x).1 hx]⟩
  · rw [(hobj y).1 hy0, Dbl.fin_add, Dbl.fin_sub]
    have hpow : 0 < stretchZ a p ^ ((d : ℝ) - 1) := Real.rpow_pos_of_pos hz _
    have hrho : 0 < stretchZ a p ^ ((d : ℝ) - 1) * f y / f x := by positivity
    have hlog : ((d : ℝ) - 1) * Real.log (stretchZ a p) + Real.log (f y) - Real.log (f x) =
        Real.log (stretchZ a p ^ ((d : ℝ) - 1) * f y / f x) := by
      rw [Real.log_div (by positivity) hx.ne', Real.log_mul hpow.ne' hy0.ne', Real.log_rpow hz]
    have hiff : ((Dbl.fin r).log < Dbl.fin (((d : ℝ) - 1) * Real.log (stretchZ a p) + Real.log (f y) - Real.log (f x)) ∧
        (Dbl.fin (Real.log (f y))).isFinite = true) ↔ r < stretchZ a p ^ ((d : ℝ) - 1) * f y / f x := by
      rw [hlog]
      rcases hr.eq_or_lt with hr0 | hr0
      · rw [← hr0]
        simp [Dbl.log, hrho, Dbl.isFinite]
      · simp [Dbl.log, hr0, Dbl.isFinite, Real.log_lt_log_iff hr0 hrho]
    by_cases hc : r < stretchZ a p ^ ((d : ℝ) - 1) * f y / f x
    · rw [if_pos (hiff.2 hc), hwalk, if_pos hc]
      exact ⟨true, by rw [(hobj y).1 hy0]⟩
    · rw [if_neg (fun h => hc (hiff.1 h)), hwalk, if_neg hc]
      exact ⟨false, by rw [(hobj x).1 hx]⟩

theorem walk_pos {f : (Fin d → ℝ) → ℝ} (h0 : ∀ x, 0 ≤ f x) {a p r : ℝ} (hr : 0 ≤ r) {x c : Fin d → ℝ}
    (hx : 0 < f x) : 0 < f (walk f a c x p r) := by
  unfold walk
  split
  · rename_i h
    rcases (h0 (nudgedY (stretchZ a p) c x)).eq_or_lt with h1 | h1
    · rw [← h1] at h
      simp at h
      linarith
    · exact h1
  · exact hx

theorem moveWalker_eq {M : Nat} {u : UniformInt} {ur : UniformReal} {objective : List Dbl → Dbl}
    {a : ℝ} {dim : Nat} {complement : List Nat} {cur : List SamplerState} {rest : List Nat} {k r0 r1 r2 : Nat}
    (hg : ∀ s ∈ cur, s.Good objective dim) (hk : k < cur.length)
    (hcl : complement.length < M)
    (hlt : u.draw 0 (complement.length - 1) r0 < complement.length)
    (hj : complement[u.draw 0 (complement.length - 1) r0] < cur.length) :
    moveWalker M u ur objective a dim complement (cur, r0 :: r1 :: r2 :: rest) k =
      .ok (cur.set k (stretchResult objective a cur[k] cur[complement[u.draw 0 (complement.length - 1) r0]]
        (ur.draw r1) (ur.draw r2)), rest) := by
  have hsz : sizeSub M complement.length 1 = complement.length - 1 := by
    unfold sizeSub
    rw [show complement.length + M - 1 = (complement.length - 1) + M by omega, Nat.add_mod_right,
      Nat.mod_eq_of_lt (by omega)]
  obtain ⟨x, hx⟩ := (hg _ (List.getElem_mem hj)).1
  have hpick : pickFinite M u complement cur (r0 :: r1 :: r2 :: rest) =
      .ok (complement[u.draw 0 (complement.length - 1) r0], r1 :: r2 :: rest) := by
    rw [pickFinite, hsz, vecGet_lt hlt]
    simp only [except_ok_bind]
    rw [vecGet_lt hj]
    simp only [except_ok_bind]
    rw [hx]
    rfl
  unfold moveWalker
  simp only
  rw [vecGet_lt hk, hpick]
  simp only [except_ok_bind, nextRaw]
  rw [vecGet_lt hj]
  simp only [except_ok_bind]
  have hdk := (hg _ (List.getElem_mem hk)).2.2
  rw [(proposeParams_ok hdk (hg _ (List.getElem_mem hj)).2.2).2 rfl]
  simp only [except_ok_bind]
  unfold stretchResult
  simp only [hdk]
  split
  · rename_i hc
    rw [vecSet_ok.2 ⟨hk, rfl⟩, except_ok_bind]
    exact congrArg (fun s => Except.ok (cur.set k s, rest)) (if_pos hc).symm
  · rename_i hc
    rw [vecSet_ok.2 ⟨hk, rfl⟩, except_ok_bind]
    exact congrArg (fun s => Except.ok (cur.set k s, rest)) (if_neg hc).symm

/-! ## The moves of a split, of a step, of a chain -/

theorem runMoves_append (f : (Fin d → ℝ) → ℝ) (a : ℝ) : ∀ (l₁ l₂ : List (Move N)) (D : ℕ → Draws)
    (X : Fin N → Fin d → ℝ), runMoves f a (l₁ ++ l₂) D X =
      runMoves f a l₂ (fun i => D (l₁.length + i)) (runMoves f a l₁ D X) := by
  intro l₁
  induction l₁ with
  | nil => intro l₂ D X; simp [runMoves]
  | cons m l ih =>
    intro l₂ D X
    simp only [List.cons_append, runMoves, List.length_cons]
    rw [ih]
    congr 1
    funext i
    congr 1
    omega

theorem runMoves_pos {f : (Fin d → ℝ) → ℝ} (h0 : ∀ x, 0 ≤ f x) {a : ℝ} : ∀ (l : List (Move N)) (D : ℕ → Draws)
    (X : Fin N → Fin d → ℝ), (∀ i, 0 < f (X i)) → ∀ i, 0 < f (runMoves f a l D X i) := by
  intro l
  induction l with
  | nil => intro D X h; exact h
  | cons m l ih =>
    intro D X h
    refine ih _ _ fun i => ?_
    unfold moveOne
    by_cases hi : i = m.walker
    · subst hi
      rw [Function.update_self]
      exact walk_pos h0 (Int.fract_nonneg _) (h _)
    · rw [Function.update_of_ne hi]
      exact h i

/-- The move of walker `k` with a partner among `complement`. -/
noncomputable def codeMove [NeZero N] (complement : List Nat) (k : Nat) : Move N where
  walker := Fin.ofNat N k
  partner u := Fin.ofNat N (complement.getD
    (min ⌊Int.fract u * ((complement.length - 1 : ℕ) + 1 : ℝ)⌋₊ (complement.length - 1)) 0)

theorem codeMove_measurable [NeZero N] (complement : List Nat) (k : Nat) :
    Measurable (codeMove (N := N) complement k).partner := by
  unfold codeMove
  have h1 : Measurable fun u : ℝ => ⌊Int.fract u * ((complement.length - 1 : ℕ) + 1 : ℝ)⌋₊ :=
    Nat.measurable_floor.comp (measurable_fract.mul measurable_const)
  exact (measurable_from_top (f := fun n : ℕ => Fin.ofNat N (complement.getD (min n (complement.length - 1)) 0))).comp h1

theorem codeMove_ne [NeZero N] {complement : List Nat} {k : Nat} (hk : k < N) (hc : complement ≠ [])
    (hci : ∀ j ∈ complement, j < N ∧ j ≠ k) (u : ℝ) :
    (codeMove (N := N) complement k).partner u ≠ (codeMove (N := N) complement k).walker := by
  unfold codeMove
  simp only
  have hpos := List.length_pos_iff.2 hc
  have hlt : min ⌊Int.fract u * ((complement.length - 1 : ℕ) + 1 : ℝ)⌋₊ (complement.length - 1) < complement.length :=
    lt_of_le_of_lt (min_le_right _ _) (by omega)
  generalize min ⌊Int.fract u * ((complement.length - 1 : ℕ) + 1 : ℝ)⌋₊ (complement.length - 1) = n at hlt
  obtain ⟨h1, h2⟩ := hci _ (List.getElem_mem hlt)
  intro e
  have e2 := congrArg Fin.val e
  rw [List.getD_eq_getElem?_getD, List.getElem?_eq_getElem hlt, Option.getD_some] at e2
  simp only [Fin.ofNat, Nat.mod_eq_of_lt h1, Nat.mod_eq_of_lt hk] at e2
  exact h2 e2

theorem split_run [NeZero N] {M : Nat} {objective : List Dbl → Dbl} {f : (Fin d → ℝ) → ℝ} (h0 : ∀ x, 0 ≤ f x)
    (hobj : IsLogDensity objective f) {a : ℝ} (ha : 1 < a) (D : ℕ → Draws) {complement : List Nat}
    (hc : complement ≠ []) (hcl : complement.length < M) (hci : ∀ j ∈ complement, j < N) :
    ∀ (ks : List Nat) (o : Nat) (cur : List SamplerState) (X : Fin N → Fin d → ℝ) (rest : List Nat),
      Holds objective cur X → (∀ i, 0 < f (X i)) → (∀ k ∈ ks, k < N) →
      ∃ next, ks.foldlM (moveWalker M (drawsInt D) (drawsReal D) objective a d complement)
          (cur, List.range' (3 * o) (3 * ks.length) ++ rest) = .ok (next, rest) ∧
        Holds objective next (runMoves f a (ks.map (codeMove complement)) (fun i => D (o + i)) X) := by
  intro ks
  induction ks with
  | nil => intro o cur X rest hh _ _; exact ⟨cur, rfl, hh⟩
  | cons k t ih =>
    intro o cur X rest hh hX hk
    have hkN : k < N := hk k (by simp)
    have hg := hh.good hobj hX
    have hpos := List.length_pos_iff.2 hc
    have hdraw : (drawsInt D).draw 0 (complement.length - 1) (3 * o) =
        min ⌊Int.fract (D o).1 * ((complement.length - 1 : ℕ) + 1 : ℝ)⌋₊ (complement.length - 1) := by
      simp only [drawsInt, Nat.sub_zero, Nat.zero_add]
      rw [show 3 * o / 3 = o by omega]
    have hlt : (drawsInt D).draw 0 (complement.length - 1) (3 * o) < complement.length := by
      rw [hdraw]
      exact lt_of_le_of_lt (min_le_right _ _) (by omega)
    have hjN := hci _ (List.getElem_mem hlt)
    have hraw : List.range' (3 * o) (3 * (k :: t).length) ++ rest =
        3 * o :: (3 * o + 1) :: (3 * o + 2) :: (List.range' (3 * (o + 1)) (3 * t.length) ++ rest) := by
      rw [List.length_cons, show 3 * (t.length + 1) = 3 * t.length + 1 + 1 + 1 by ring, List.range'_succ,
        List.range'_succ, List.range'_succ]
      simp only [List.cons_append]
      rw [show 3 * o + 1 + 1 + 1 = 3 * (o + 1) by ring, show 3 * o + 1 + 1 = 3 * o + 2 by ring]
    have hmv := moveWalker_eq (u := drawsInt D) (ur := drawsReal D) (a := a)
      (rest := List.range' (3 * (o + 1)) (3 * t.length) ++ rest) (r0 := 3 * o) (r1 := 3 * o + 1) (r2 := 3 * o + 2)
      hg (by rw [hh.1]; exact hkN) hcl hlt (by rw [hh.1]; exact hjN)
    set j := complement[(drawsInt D).draw 0 (complement.length - 1) (3 * o)] with hjdef
    obtain ⟨acc, hxk⟩ := hh.2 ⟨k, hkN⟩
    obtain ⟨acc', hxj⟩ := hh.2 ⟨j, hjN⟩
    have ek : cur[k]'(by rw [hh.1]; exact hkN) = _ := (List.getElem?_eq_some_iff.1 hxk).2
    have ej : cur[j]'(by rw [hh.1]; exact hjN) = _ := (List.getElem?_eq_some_iff.1 hxj).2
    have ep : (drawsReal D).draw (3 * o + 1) = Int.fract (D o).2.1 := by
      simp only [drawsReal]
      rw [if_pos (by omega), show (3 * o + 1) / 3 = o by omega]
    have er : (drawsReal D).draw (3 * o + 2) = Int.fract (D o).2.2 := by
      simp only [drawsReal]
      rw [if_neg (by omega), show (3 * o + 2) / 3 = o by omega]
    obtain ⟨accepted, hres⟩ := stretchResult_walk hobj h0 ha (Int.fract_nonneg (D o).2.1)
      (Int.fract_nonneg (D o).2.2) (x := X ⟨k, hkN⟩) (c := X ⟨j, hjN⟩) (hX _) acc acc'
    rw [ek, ej, ep, er, hres] at hmv
    have hmove : moveOne f a (codeMove complement k) (D o) X =
        Function.update X ⟨k, hkN⟩ (walk f a (X ⟨j, hjN⟩) (X ⟨k, hkN⟩) (Int.fract (D o).2.1) (Int.fract (D o).2.2)) := by
      have e1 : (codeMove (N := N) complement k).walker = ⟨k, hkN⟩ :=
        Fin.ext (by simp [codeMove, Fin.ofNat, Nat.mod_eq_of_lt hkN])
      have e2 : (codeMove (N := N) complement k).partner (D o).1 = ⟨j, hjN⟩ := by
        refine Fin.ext ?_
        simp only [codeMove]
        rw [← hdraw, List.getD_eq_getElem?_getD, List.getElem?_eq_getElem hlt, Option.getD_some, ← hjdef]
        exact Nat.mod_eq_of_lt hjN
      unfold moveOne
      rw [e1, e2]
    have hh' : Holds objective (cur.set k ⟨paramList (walk f a (X ⟨j, hjN⟩) (X ⟨k, hkN⟩) (Int.fract (D o).2.1)
        (Int.fract (D o).2.2)), objective (paramList (walk f a (X ⟨j, hjN⟩) (X ⟨k, hkN⟩) (Int.fract (D o).2.1)
        (Int.fract (D o).2.2))), accepted⟩) (moveOne f a (codeMove complement k) (D o) X) := by
      rw [hmove]
      refine ⟨by rw [List.length_set, hh.1], fun i => ?_⟩
      by_cases hi : i = ⟨k, hkN⟩
      · subst hi
        rw [Function.update_self]
        exact ⟨accepted, List.getElem?_set_self (by rw [hh.1]; exact hkN)⟩
      · rw [Function.update_of_ne hi, List.getElem?_set_ne (fun e => hi (Fin.ext e.symm))]
        exact hh.2 i
    have hX' : ∀ i, 0 < f (moveOne f a (codeMove complement k) (D o) X i) :=
      runMoves_pos h0 [codeMove complement k] (fun _ => D o) X hX
    obtain ⟨next, hn1, hn2⟩ := ih (o + 1) _ _ rest hh' hX' fun i hi => hk i (List.mem_cons_of_mem _ hi)
    refine ⟨next, ?_, ?_⟩
    · rw [hraw, List.foldlM_cons, hmv, except_ok_bind, hn1]
    · simp only [List.map_cons, runMoves, Nat.add_zero]
      rw [show (fun i => D (o + (i + 1))) = fun i => D (o + 1 + i) from funext fun i => by congr 1; omega]
      exact hn2

/-- The splits are disjoint, cover the walkers and leave partners. -/
theorem splits_facts {n nSplits : Nat} (hn : 2 ≤ n) (hs : 2 ≤ nSplits) : ∃ splits,
    splitIndices n nSplits = .ok splits ∧ (splits.map List.length).sum = n ∧
    ∀ split ∈ splits, (∀ i ∈ split, i < n) ∧ indicesComplement split n ≠ [] ∧
      (∀ j ∈ indicesComplement split n, j < n ∧ j ∉ split) ∧ (indicesComplement split n).length ≤ n := by
  obtain ⟨splits, hsp, hlen, hall⟩ := splitIndices_ok (n := n) (k := nSplits) (by omega)
  have hsplit : ∀ split ∈ splits, split.Nodup ∧ (∀ i ∈ split, i < n) ∧ indicesComplement split n ≠ [] := by
    intro split hmem
    obtain ⟨t, ht⟩ := List.mem_iff_getElem?.1 hmem
    obtain ⟨h1, h2⟩ := hall t split ht
    refine ⟨h1, fun i hi => ((h2 i).1 hi).1, ?_⟩
    intro e
    have hc := (C06_indices_complement split n).2.1
    rw [e] at hc
    have h0 := (hc 0).not.1 (by simp)
    have h1' := (hc 1).not.1 (by simp)
    have a0 : 0 ∈ split := by by_contra hx; exact h0 ⟨by omega, hx⟩
    have a1 : 1 ∈ split := by by_contra hx; exact h1' ⟨by omega, hx⟩
    have b0 := ((h2 0).1 a0).2
    have b1 := ((h2 1).1 a1).2
    rw [Nat.zero_mod] at b0
    rw [Nat.mod_eq_of_lt (by omega)] at b1
    omega
  refine ⟨splits, hsp, ?_, fun split hmem => ⟨(hsplit split hmem).2.1, (hsplit split hmem).2.2, fun j hj =>
    ((C06_indices_complement split n).2.1 j).1 hj, ?_⟩⟩
  · have hp : (splits.flatten).Perm (List.range n) := by
      rw [List.perm_ext_iff_of_nodup _ List.nodup_range]
      · intro i
        rw [List.mem_flatten, List.mem_range]
        constructor
        · rintro ⟨sp, hsp, hi⟩; exact (hsplit sp hsp).2.1 i hi
        · intro hi
          have ht : i % nSplits < splits.length := by
            rw [hlen]
            have h1 := Nat.mod_lt i (show 0 < nSplits by omega)
            have h2 := Nat.mod_le i nSplits
            omega
          exact ⟨splits[i % nSplits], List.getElem_mem _,
            ((hall (i % nSplits) _ (List.getElem?_eq_getElem ht)).2 i).2 ⟨hi, rfl⟩⟩
      · rw [List.nodup_flatten]
        refine ⟨fun l hl => (hsplit l hl).1, ?_⟩
        rw [List.pairwise_iff_getElem]
        intro i j hi hj hij x hx hy
        have h1 := ((hall i _ (List.getElem?_eq_getElem hi)).2 x).1 hx
        have h2 := ((hall j _ (List.getElem?_eq_getElem hj)).2 x).1 hy
        omega
    have := hp.length_eq
    rwa [List.length_flatten, List.length_range] at this
  · have hnd : (indicesComplement split n).Nodup :=
      (C06_indices_complement split n).1.imp fun h => ne_of_lt h
    have := (hnd.subperm (l₂ := List.range n)
      fun j hj => List.mem_range.2 (((C06_indices_complement split n).2.1 j).1 hj).1).length_le
    simpa using this

theorem assertValidStates_good {b : Build} {objective : List Dbl → Dbl} {dim : Nat} : ∀ {l : List SamplerState},
    (∀ s ∈ l, s.Good objective dim) → assertValidStates b l = .ok () := by
  intro l
  unfold assertValidStates
  induction l with
  | nil => intro _; rfl
  | cons x t ih =>
    intro h
    obtain ⟨y, hy⟩ := (h x (by simp)).1
    show (albatrossAssert b x.logProb.isFinite >>= fun _ => t.forM _) = _
    rw [hy]
    show (albatrossAssert b true >>= fun _ => t.forM _) = _
    rw [albatrossAssert_true, except_ok_bind]
    exact ih fun s hs => h s (by simp [hs])

/-- A step of the code is a sequence of as many moves as there are walkers, each with a partner other
than the walker. -/
theorem step_run [NeZero N] {M : Nat} {b : Build} {objective : List Dbl → Dbl} {f : (Fin d → ℝ) → ℝ}
    (h0 : ∀ x, 0 ≤ f x) (hobj : IsLogDensity objective f) {a : ℝ} (ha : 1 < a) {nSplits : Nat} (hN : 2 ≤ N)
    (hs : 2 ≤ nSplits) (hM : N < M) : ∃ l : List (Move N), l.length = N ∧
      (∀ m ∈ l, Measurable m.partner ∧ ∀ u, m.partner u ≠ m.walker) ∧
      ∀ (D : ℕ → Draws) (o : Nat) (cur : List SamplerState) (X : Fin N → Fin d → ℝ) (rest : List Nat),
        Holds objective cur X → (∀ i, 0 < f (X i)) →
        ∃ next, stretchMoveStep M b (drawsInt D) (drawsReal D) objective nSplits a cur
            (List.range' (3 * o) (3 * N) ++ rest) = .ok (next, rest) ∧
          Holds objective next (runMoves f a l (fun i => D (o + i)) X) := by
  obtain ⟨splits, hsp, htotal, hsplit⟩ := splits_facts hN hs
  refine ⟨splits.flatMap fun sp => sp.map (codeMove (indicesComplement sp N)), ?_, ?_, ?_⟩
  · rw [List.length_flatMap]
    simpa using htotal
  · intro m hm
    rw [List.mem_flatMap] at hm
    obtain ⟨sp, hsp, hm⟩ := hm
    obtain ⟨k, hk, rfl⟩ := List.mem_map.1 hm
    obtain ⟨h1, h2, h3, -⟩ := hsplit sp hsp
    exact ⟨codeMove_measurable _ _, codeMove_ne (h1 k hk) h2 fun j hj =>
      ⟨(h3 j hj).1, fun e => (h3 j hj).2 (e ▸ hk)⟩⟩
  · intro D o cur X rest hh hX
    have hg := hh.good hobj hX
    have hloop : ∀ (l : List (List Nat)) (o : Nat) (cur : List SamplerState) (X : Fin N → Fin d → ℝ),
        (∀ sp ∈ l, sp ∈ splits) → Holds objective cur X → (∀ i, 0 < f (X i)) →
        ∃ next, l.foldlM (fun next split => split.foldlM (moveWalker M (drawsInt D) (drawsReal D) objective a d
            (indicesComplement split N)) next) (cur, List.range' (3 * o) (3 * (l.map List.length).sum) ++ rest) =
              .ok (next, rest) ∧
          Holds objective next (runMoves f a (l.flatMap fun sp => sp.map (codeMove (indicesComplement sp N)))
            (fun i => D (o + i)) X) := by
      intro l
      induction l with
      | nil => intro o cur X _ hh _; exact ⟨cur, rfl, hh⟩
      | cons sp t ih =>
        intro o cur X hsub hh hX
        obtain ⟨h1, h2, h3, h4⟩ := hsplit sp (hsub sp (by simp))
        have hraw : List.range' (3 * o) (3 * ((sp :: t).map List.length).sum) ++ rest =
            List.range' (3 * o) (3 * sp.length) ++
              (List.range' (3 * (o + sp.length)) (3 * (t.map List.length).sum) ++ rest) := by
          rw [List.map_cons, List.sum_cons, ← List.append_assoc, mul_add 3 o, List.range'_append_1, mul_add]
        obtain ⟨next, hn1, hn2⟩ := split_run (M := M) h0 hobj ha D h2 (by omega) (fun j hj => (h3 j hj).1) sp o cur X
          (List.range' (3 * (o + sp.length)) (3 * (t.map List.length).sum) ++ rest) hh hX h1
        obtain ⟨next', hn3, hn4⟩ := ih (o + sp.length) next _ (fun x hx => hsub x (List.mem_cons_of_mem _ hx)) hn2
          (runMoves_pos h0 _ _ _ hX)
        refine ⟨next', ?_, ?_⟩
        · rw [hraw, List.foldlM_cons, hn1, except_ok_bind, hn3]
        · rw [List.flatMap_cons, runMoves_append, List.length_map]
          rw [show (fun i => D (o + (sp.length + i))) = fun i => D (o + sp.length + i) from
            funext fun i => by congr 1; omega]
          exact hn4
    obtain ⟨next, hn1, hn2⟩ := hloop splits o cur X (fun _ h => h) hh hX
    refine ⟨next, ?_, hn2⟩
    rw [htotal] at hn1
    have hl := hh.1
    have hpos : 0 < cur.length := by omega
    have hfirst := (hg _ (List.getElem_mem hpos)).2.2
    unfold stretchMoveStep
    rw [vecGet_lt hpos, except_ok_bind, assertValidStates_good hg, except_ok_bind, hfirst, hl, hsp, except_ok_bind]
    exact hn1

/-! ## The property -/

/-- The states with parameters `X`, the objective's values at them and the given flags. -/
def statesOf (objective : List Dbl → Dbl) (flags : Fin N → Bool) (X : Fin N → Fin d → ℝ) : List SamplerState :=
  List.ofFn fun i => ⟨paramList (X i), objective (paramList (X i)), flags i⟩

theorem statesOf_holds (objective : List Dbl → Dbl) (flags : Fin N → Bool) (X : Fin N → Fin d → ℝ) :
    Holds objective (statesOf objective flags X) X := by
  refine ⟨by simp [statesOf], fun i => ⟨flags i, ?_⟩⟩
  simp [statesOf]

/-- The walkers after a step. -/
noncomputable def stepWalkers : Outcome (List SamplerState × List Nat) → Fin N → Fin d → ℝ
  | .ok (states, _) => readWalkers states
  | .error _ => 0

/-- The walkers in state number `m` of a chain. -/
noncomputable def chainWalkers {σ : Type} (m : Nat) : Outcome (List (List SamplerState) × σ × List Nat) →
    Fin N → Fin d → ℝ
  | .ok (out, _, _) => readWalkers (out.getD m [])
  | .error _ => 0

/-- Under the target distribution the density is positive. -/
theorem targetLaw_pos {f : (Fin d → ℝ) → ℝ} (hf : Measurable f) : ∀ᵐ x ∂(targetLaw f), 0 < f x := by
  unfold targetLaw
  refine Measure.ae_smul_measure ?_ _
  rw [ae_withDensity_iff hf.ennreal_ofReal]
  refine Filter.Eventually.of_forall fun x hx => ?_
  by_contra h
  exact hx (ENNReal.ofReal_of_nonpos (not_lt.1 h))

theorem walkers_pos {f : (Fin d → ℝ) → ℝ} (hf : Measurable f) (hprob : IsProbabilityMeasure (targetLaw f)) :
    ∀ᵐ q ∂(uniformDraws.prod (Measure.pi fun _ : Fin N => targetLaw f)), ∀ i, 0 < f (q.2 i) := by
  have h1 : ∀ᵐ X ∂(Measure.pi fun _ : Fin N => targetLaw f), ∀ i, 0 < f (X i) := by
    rw [ae_all_iff]
    intro i
    exact (Measure.tendsto_eval_ae_ae (μ := fun _ : Fin N => targetLaw f) (i := i)).eventually (targetLaw_pos hf)
  exact Measure.quasiMeasurePreserving_snd.ae h1

/-- C120, one step.  Suppose the objective is, up to a constant, the logarithm of a density: finite where
the density is positive and not finite elsewhere.  If the walkers are independent and have this density,
and the draws are independent and uniform, then a step returns with probability one, uses three draws per
walker, and the walkers are afterwards again independent with this density.  This holds for every number
of walkers and of splits above one, every dimension and every stretch above one. -/
theorem C120_step (M : Nat) (b : Build) (objective : List Dbl → Dbl) (f : (Fin d → ℝ) → ℝ) (hf : Measurable f)
    (h0 : ∀ x, 0 ≤ f x) (hpos : ∫⁻ x, ENNReal.ofReal (f x) ≠ 0) (hfin : ∫⁻ x, ENNReal.ofReal (f x) ≠ ∞)
    (hobj : IsLogDensity objective f) (a : ℝ) (ha : 1 < a) (nSplits : Nat) (hs : 2 ≤ nSplits) (hN : 2 ≤ N)
    (hM : N < M) (flags : Fin N → Bool) :
    (∀ᵐ q ∂(uniformDraws.prod (Measure.pi fun _ : Fin N => targetLaw f)), ∃ next,
      stretchMoveStep M b (drawsInt q.1) (drawsReal q.1) objective nSplits a (statesOf objective flags q.2)
        (List.range (3 * N)) = .ok (next, []) ∧ Holds objective next (readWalkers (d := d) (N := N) next)) ∧
    Measure.map (fun q : (ℕ → Draws) × (Fin N → Fin d → ℝ) =>
        (stepWalkers (stretchMoveStep M b (drawsInt q.1) (drawsReal q.1) objective nSplits a
          (statesOf objective flags q.2) (List.range (3 * N))) : Fin N → Fin d → ℝ))
      (uniformDraws.prod (Measure.pi fun _ => targetLaw f)) = Measure.pi fun _ => targetLaw f := by
  have hprob := targetLaw_prob hpos hfin
  have hnz : NeZero N := ⟨by omega⟩
  obtain ⟨l, -, hl, hrun⟩ := step_run (M := M) (b := b) (N := N) h0 hobj ha hN hs hM
  have hstep : ∀ q : (ℕ → Draws) × (Fin N → Fin d → ℝ), (∀ i, 0 < f (q.2 i)) → ∃ next,
      stretchMoveStep M b (drawsInt q.1) (drawsReal q.1) objective nSplits a (statesOf objective flags q.2)
        (List.range (3 * N)) = .ok (next, []) ∧ Holds objective next (runMoves f a l q.1 q.2) := by
    intro q hq
    have := hrun q.1 0 _ q.2 [] (statesOf_holds objective flags q.2) hq
    simpa [List.range_eq_range'] using this
  constructor
  · filter_upwards [walkers_pos (N := N) hf hprob] with q hq
    obtain ⟨next, h1, h2⟩ := hstep q hq
    exact ⟨next, h1, h2.read.symm ▸ h2⟩
  · refine Eq.trans (Measure.map_congr ?_) (runMoves_law (N := N) hf h0 hprob ha l hl)
    filter_upwards [walkers_pos (N := N) hf hprob] with q hq
    obtain ⟨next, h1, h2⟩ := hstep q hq
    rw [h1]
    exact h2.read

theorem samplerLoop_run [NeZero N] {σ : Type} {M : Nat} {b : Build} {objective : List Dbl → Dbl}
    {f : (Fin d → ℝ) → ℝ} (h0 : ∀ x, 0 ≤ f x) {callback : σ → Nat → List SamplerState → σ} {l : List (Move N)}
    (hlen : l.length = N) {D : ℕ → Draws}
    (hrun : ∀ (o : Nat) (cur : List SamplerState) (X : Fin N → Fin d → ℝ) (rest : List Nat),
        Holds objective cur X → (∀ i, 0 < f (X i)) →
        ∃ next, stretchMoveStep M b (drawsInt D) (drawsReal D) objective 2 2 cur
            (List.range' (3 * o) (3 * N) ++ rest) = .ok (next, rest) ∧
          Holds objective next (runMoves f 2 l (fun i => D (o + i)) X)) :
    ∀ (n iter o : Nat) (state : List SamplerState) (X : Fin N → Fin d → ℝ) (output : List (List SamplerState)) (cb : σ),
      Holds objective state X → (∀ i, 0 < f (X i)) →
      ∃ added cb', samplerLoop M b (drawsInt D) (drawsReal D) objective callback n iter state output cb
          (List.range' (3 * o) (3 * (N * n))) = .ok (output ++ added, cb', []) ∧ added.length = n ∧
        ∀ m, m < n → ∃ st, added[m]? = some st ∧
          Holds objective st (runMoves f 2 (List.replicate (m + 1) l).flatten (fun i => D (o + i)) X) := by
  intro n
  induction n with
  | zero =>
    intro iter o state X output cb _ _
    exact ⟨[], cb, by simp [samplerLoop], rfl, fun m hm => by omega⟩
  | succ n ih =>
    intro iter o state X output cb hh hX
    have hraw : List.range' (3 * o) (3 * (N * (n + 1))) =
        List.range' (3 * o) (3 * N) ++ List.range' (3 * (o + N)) (3 * (N * n)) := by
      rw [mul_add 3 o, List.range'_append_1]
      congr 1
      ring
    obtain ⟨next, hn1, hn2⟩ := hrun o state X (List.range' (3 * (o + N)) (3 * (N * n))) hh hX
    obtain ⟨added, cb', h1, h2, h3⟩ := ih (iter + 1) (o + N) next _ (output ++ [next]) (callback cb iter next) hn2
      (runMoves_pos h0 _ _ _ hX)
    refine ⟨next :: added, cb', ?_, by simp [h2], ?_⟩
    · rw [hraw]
      simp only [samplerLoop, hn1, except_ok_bind, h1]
      simp
    · intro m hm
      cases m with
      | zero => exact ⟨next, rfl, by simpa using hn2⟩
      | succ m =>
        obtain ⟨st, hst, hst2⟩ := h3 m (by omega)
        refine ⟨st, by simpa using hst, ?_⟩
        rw [List.replicate_succ, List.flatten_cons, runMoves_append, hlen]
        rw [show (fun i => D (o + (N + i))) = fun i => D (o + N + i) from funext fun i => by congr 1; omega]
        exact hst2

/-- C120, the chain.  Started from independent walkers with the target distribution, the sampler returns
with probability one, and in every state of the chain the walkers are independent with the target
distribution. -/
theorem C120_chain {σ : Type} (M : Nat) (b : Build) (objective : List Dbl → Dbl) (f : (Fin d → ℝ) → ℝ)
    (hf : Measurable f) (h0 : ∀ x, 0 ≤ f x) (hpos : ∫⁻ x, ENNReal.ofReal (f x) ≠ 0)
    (hfin : ∫⁻ x, ENNReal.ofReal (f x) ≠ ∞) (hobj : IsLogDensity objective f) (hN : 2 < N) (hM : N < M)
    (callback : σ → Nat → List SamplerState → σ) (cb : σ) (maxIterations : Nat) :
    (∀ᵐ q ∂(uniformDraws.prod (Measure.pi fun _ : Fin N => targetLaw f)), ∃ out cb',
      ensembleSamplerFrom M b (drawsInt q.1) (drawsReal q.1) objective callback
        (List.ofFn fun i => paramList (q.2 i)) maxIterations cb (List.range (3 * (N * maxIterations))) =
          .ok (out, cb', []) ∧ out.length = maxIterations + 1) ∧
    ∀ m ≤ maxIterations, Measure.map (fun q : (ℕ → Draws) × (Fin N → Fin d → ℝ) =>
        (chainWalkers m (ensembleSamplerFrom M b (drawsInt q.1) (drawsReal q.1) objective callback
          (List.ofFn fun i => paramList (q.2 i)) maxIterations cb (List.range (3 * (N * maxIterations)))) :
            Fin N → Fin d → ℝ))
      (uniformDraws.prod (Measure.pi fun _ => targetLaw f)) = Measure.pi fun _ => targetLaw f := by
  have hprob := targetLaw_prob hpos hfin
  have hnz : NeZero N := ⟨by omega⟩
  obtain ⟨l, hlen, hl, hrun⟩ := step_run (M := M) (b := b) (N := N) h0 hobj (a := 2) (by norm_num) (nSplits := 2)
    (by omega) le_rfl hM
  have hchain : ∀ q : (ℕ → Draws) × (Fin N → Fin d → ℝ), (∀ i, 0 < f (q.2 i)) → ∃ out cb',
      ensembleSamplerFrom M b (drawsInt q.1) (drawsReal q.1) objective callback
        (List.ofFn fun i => paramList (q.2 i)) maxIterations cb (List.range (3 * (N * maxIterations))) =
          .ok (out, cb', []) ∧ out.length = maxIterations + 1 ∧
      ∀ m ≤ maxIterations, ∃ st, out[m]? = some st ∧
        Holds objective st (runMoves f 2 (List.replicate m l).flatten q.1 q.2) := by
    intro q hq
    have hinit : (List.ofFn fun i => paramList (q.2 i)).map (fun p => (⟨p, objective p, true⟩ : SamplerState)) =
        statesOf objective (fun _ => true) q.2 := by
      rw [List.map_ofFn]
      rfl
    have hh := statesOf_holds objective (fun _ : Fin N => true) q.2
    have hg := hh.good hobj hq
    have hens := (C47_ensure_finite_checks M b (drawsInt q.1) (drawsReal q.1) objective
      (statesOf objective (fun _ => true) q.2) (List.range (3 * (N * maxIterations)))).1 (by rw [hh.1]; exact hN) (by
        intro s hs
        refine ⟨(hg s hs).1, fun p hp => ?_⟩
        obtain ⟨i, rfl⟩ := (List.mem_ofFn' _ _).1 hs
        obtain ⟨k, rfl⟩ := (List.mem_ofFn' _ _).1 hp
        exact ⟨_, rfl⟩)
    obtain ⟨added, cb', h1, h2, h3⟩ := samplerLoop_run (callback := callback) h0 hlen (hrun q.1) maxIterations 1 0 _ q.2
      [statesOf objective (fun _ => true) q.2] (callback cb 0 (statesOf objective (fun _ => true) q.2)) hh hq
    refine ⟨[statesOf objective (fun _ => true) q.2] ++ added, cb', ?_, ?_, ?_⟩
    · unfold ensembleSamplerFrom ensembleSampler
      rw [hinit, hens, except_ok_bind]
      simp only
      rw [List.range_eq_range']
      exact h1
    · simp [h2]
    · intro m hm
      cases m with
      | zero => exact ⟨_, rfl, hh⟩
      | succ m =>
        obtain ⟨st, hst, hst2⟩ := h3 m (by omega)
        exact ⟨st, by simpa using hst, by simpa using hst2⟩
  constructor
  · filter_upwards [walkers_pos (N := N) hf hprob] with q hq
    obtain ⟨out, cb', h1, h2, -⟩ := hchain q hq
    exact ⟨out, cb', h1, h2⟩
  · intro m hm
    refine Eq.trans (Measure.map_congr ?_) (runMoves_law (N := N) hf h0 hprob (a := 2) (by norm_num)
      (List.replicate m l).flatten ?_)
    · filter_upwards [walkers_pos (N := N) hf hprob] with q hq
      obtain ⟨out, cb', h1, -, h3⟩ := hchain q hq
      obtain ⟨st, hst, hst2⟩ := h3 m hm
      rw [h1]
      simp only [chainWalkers, List.getD_eq_getElem?_getD, hst, Option.getD_some]
      exact hst2.read
    · intro mv hmv
      rw [List.mem_flatten] at hmv
      obtain ⟨l', hl', hmv⟩ := hmv
      rw [(List.mem_replicate.1 hl').2] at hmv
      exact hl mv hmv

/-! ## Non-vacuity -/

section Examples

/-- The uniform distribution on the unit cube, given by its log density. -/
noncomputable def cubeObjective (params : List Dbl) : Dbl :=
  open Classical in if ∀ p ∈ params, .fin 0 ≤ p ∧ p < .fin 1 then .fin 0 else .ninf

noncomputable def cubeDensity : (Fin d → ℝ) → ℝ := (Set.pi univ fun _ => Ico (0 : ℝ) 1).indicator fun _ => 1

/-- Its objective and density meet the hypotheses of both theorems, in every dimension. -/
theorem cube_log_density : IsLogDensity (d := d) cubeObjective cubeDensity := by
  have hiff : ∀ x : Fin d → ℝ, (∀ p ∈ paramList x, Dbl.fin 0 ≤ p ∧ p < .fin 1) ↔
      x ∈ Set.pi univ fun _ : Fin d => Ico (0 : ℝ) 1 := by
    intro x
    simp [paramList, Set.mem_pi]
  intro x
  unfold cubeDensity cubeObjective
  by_cases hx : x ∈ Set.pi univ fun _ : Fin d => Ico (0 : ℝ) 1
  · rw [indicator_of_mem hx, if_pos ((hiff x).2 hx)]
    simp
  · rw [indicator_of_notMem hx, if_neg (fun h => hx ((hiff x).1 h))]
    simp [Dbl.isFinite]

theorem cube_integral : ∫⁻ x : Fin d → ℝ, ENNReal.ofReal (cubeDensity x) = 1 := by
  have hm : MeasurableSet (Set.pi univ fun _ : Fin d => Ico (0 : ℝ) 1) :=
    MeasurableSet.univ_pi fun _ => measurableSet_Ico
  have e : ∀ x : Fin d → ℝ, ENNReal.ofReal (cubeDensity x) =
      (Set.pi univ fun _ : Fin d => Ico (0 : ℝ) 1).indicator (fun _ => 1) x := by
    intro x
    unfold cubeDensity
    by_cases hx : x ∈ Set.pi univ fun _ : Fin d => Ico (0 : ℝ) 1
    · rw [indicator_of_mem hx, indicator_of_mem hx, ENNReal.ofReal_one]
    · rw [indicator_of_notMem hx, indicator_of_notMem hx, ENNReal.ofReal_zero]
  simp_rw [e]
  rw [lintegral_indicator_const hm, volume_pi_pi]
  simp

/-- Chains of any length for four walkers in the square. -/
example (n m : Nat) (hm : m ≤ n) : Measure.map (fun q : (ℕ → Draws) × (Fin 4 → Fin 2 → ℝ) =>
    (chainWalkers m (ensembleSamplerFrom (2 ^ 64) .debug (drawsInt q.1) (drawsReal q.1) cubeObjective
      (fun (c : Nat) _ _ => c + 1) (List.ofFn fun i => paramList (q.2 i)) n 0 (List.range (3 * (4 * n)))) :
        Fin 4 → Fin 2 → ℝ))
    (uniformDraws.prod (Measure.pi fun _ => targetLaw cubeDensity)) = Measure.pi fun _ => targetLaw cubeDensity :=
  (C120_chain (2 ^ 64) .debug cubeObjective cubeDensity
    (measurable_const.indicator (MeasurableSet.univ_pi fun _ => measurableSet_Ico))
    (fun x => indicator_nonneg (fun _ _ => zero_le_one) x) (by rw [cube_integral]; simp) (by rw [cube_integral]; simp)
    cube_log_density (by norm_num) (by norm_num) _ 0 n).2 m hm

end Examples

end Albatross

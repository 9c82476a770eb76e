import Mathlib.Algebra.BigOperators.Fin
import Mathlib.Analysis.SpecificLimits.Basic
import Mathlib.Data.Nat.Choose.Basic
import Mathlib.Data.Fintype.BigOperators
import Mathlib.Logic.Equiv.Fin.Basic
import Mathlib.Tactic.LinearCombination

/-! # Drawing until enough different values have appeared

Sequences of draws are counted, so that fractions of them are probabilities for a fair engine. -/

namespace Albatross

open Finset Filter

open scoped Topology

/-- Draws until `k` different values have appeared. -/
def drawLoop (g : ℕ → ℕ) (k : ℕ) : List ℕ → Finset ℕ → Option (Finset ℕ × List ℕ)
  | raw, A =>
    if A.card < k then
      match raw with
      | [] => none
      | r :: raw => drawLoop g k raw (insert (g r) A)
    else some (A, raw)

theorem drawLoop_done {g : ℕ → ℕ} {k : ℕ} {A : Finset ℕ} (h : k ≤ A.card) (raw : List ℕ) :
    drawLoop g k raw A = some (A, raw) := by
  rw [drawLoop.eq_def]
  simp only
  rw [if_neg (by omega)]

theorem drawLoop_nil {g : ℕ → ℕ} {k : ℕ} {A : Finset ℕ} (h : A.card < k) : drawLoop g k [] A = none := by
  rw [drawLoop.eq_def]
  simp only
  rw [if_pos h]

theorem drawLoop_cons {g : ℕ → ℕ} {k : ℕ} {A : Finset ℕ} (h : A.card < k) (r : ℕ) (raw : List ℕ) :
    drawLoop g k (r :: raw) A = drawLoop g k raw (insert (g r) A) := by
  rw [drawLoop.eq_def]
  simp only
  rw [if_pos h]

/-- Successive samples, the first one having begun with `A`, are the given ones. -/
def yields (g : ℕ → ℕ) (k : ℕ) : Finset ℕ → List (Finset ℕ) → List ℕ → Prop
  | _, [], _ => True
  | A, S :: Ss, raw => ∃ rest, drawLoop g k raw A = some (S, rest) ∧ yields g k ∅ Ss rest

/-- The number of sequences of `L` engine outputs below `K` with a property. -/
noncomputable def countRaw (K : ℕ) : ℕ → (List ℕ → Prop) → ℕ
  | 0, P => open Classical in if P [] then 1 else 0
  | L + 1, P => ∑ r ∈ range K, countRaw K L fun l => P (r :: l)

theorem countRaw_congr {K : ℕ} : ∀ {L : ℕ} {P Q : List ℕ → Prop},
    (∀ l : List ℕ, l.length = L → (∀ r ∈ l, r < K) → (P l ↔ Q l)) → countRaw K L P = countRaw K L Q := by
  intro L
  induction L with
  | zero =>
    intro P Q h
    classical
    unfold countRaw
    rw [if_congr (h [] rfl (by simp)) rfl rfl]
  | succ L ih =>
    intro P Q h
    unfold countRaw
    refine sum_congr rfl fun r hr => ih fun l hl hlt => h (r :: l) (by simp [hl]) ?_
    intro x hx
    rcases List.mem_cons.1 hx with rfl | hx
    · exact Finset.mem_range.1 hr
    · exact hlt x hx

theorem countRaw_false {K : ℕ} : ∀ {L : ℕ}, countRaw K L (fun _ => False) = 0 := by
  intro L
  induction L with
  | zero => simp [countRaw]
  | succ L ih => simp [countRaw, ih]

theorem countRaw_true {K : ℕ} : ∀ {L : ℕ}, countRaw K L (fun _ => True) = K ^ L := by
  intro L
  induction L with
  | zero => simp [countRaw]
  | succ L ih => simp [countRaw, ih, pow_succ, mul_comm]

/-- Counting sequences is counting functions. -/
theorem countRaw_eq_card (K : ℕ) : ∀ (L : ℕ) (P : List ℕ → Prop),
    countRaw K L P = Nat.card {w : Fin L → Fin K // P (List.ofFn fun i => (w i : ℕ))} := by
  intro L
  induction L with
  | zero =>
    intro P
    unfold countRaw
    by_cases h : P []
    · rw [if_pos h]
      symm
      rw [Nat.card_eq_one_iff_unique]
      exact ⟨⟨fun a b => Subtype.ext (Subsingleton.elim _ _)⟩, ⟨⟨Fin.elim0, by simpa using h⟩⟩⟩
    · rw [if_neg h]
      symm
      rw [Nat.card_eq_zero]
      exact .inl ⟨fun w => h (by simpa using w.2)⟩
  | succ L ih =>
    intro P
    unfold countRaw
    have e : {w : Fin (L + 1) → Fin K // P (List.ofFn fun i => (w i : ℕ))} ≃
        Σ r : Fin K, {w : Fin L → Fin K // P ((r : ℕ) :: List.ofFn fun i => (w i : ℕ))} :=
      { toFun := fun w => ⟨w.1 0, ⟨fun i => w.1 i.succ, by simpa [List.ofFn_succ] using w.2⟩⟩
        invFun := fun q => ⟨Fin.cons q.1 q.2.1, by simpa [List.ofFn_succ] using q.2.2⟩
        left_inv := fun w => Subtype.ext (Fin.cons_self_tail w.1)
        right_inv := fun q => rfl }
    rw [Nat.card_congr e, Nat.card_sigma, Finset.sum_range]
    exact sum_congr rfl fun r _ => ih _

theorem countRaw_sum {ι : Type} {K : ℕ} (s : Finset ι) : ∀ {L : ℕ} (P : ι → List ℕ → Prop),
    (∀ l, ∀ i ∈ s, ∀ j ∈ s, P i l → P j l → i = j) →
    countRaw K L (fun l => ∃ i ∈ s, P i l) = ∑ i ∈ s, countRaw K L (P i) := by
  intro L
  induction L with
  | zero =>
    intro P h
    classical
    unfold countRaw
    by_cases hex : ∃ i ∈ s, P i []
    · rw [if_pos hex]
      obtain ⟨i, hi, hp⟩ := hex
      rw [sum_eq_single_of_mem i hi fun j hj hne => if_neg fun hpj => hne (h [] j hj i hi hpj hp), if_pos hp]
    · rw [if_neg hex]
      symm
      exact sum_eq_zero fun i hi => if_neg fun hp => hex ⟨i, hi, hp⟩
  | succ L ih =>
    intro P h
    simp only [countRaw]
    rw [sum_comm]
    exact sum_congr rfl fun r _ => ih (fun i l => P i (r :: l)) fun l => h (r :: l)

/-! ## Fair draws -/

/-- Every value of `V` is drawn by `w` of the `K` outputs. -/
def FairDraw (g : ℕ → ℕ) (K : ℕ) (V : Finset ℕ) (w : ℕ) : Prop :=
  (∀ r < K, g r ∈ V) ∧ ∀ v ∈ V, ((range K).filter fun r => g r = v).card = w

theorem FairDraw.total {g : ℕ → ℕ} {K w : ℕ} {V : Finset ℕ} (h : FairDraw g K V w) : K = V.card * w := by
  have := card_eq_sum_card_fiberwise (s := range K) (t := V) (f := g)
    (fun r hr => Finset.mem_coe.2 (h.1 r (Finset.mem_range.1 (Finset.mem_coe.1 hr))))
  rw [card_range, sum_congr rfl fun v hv => h.2 v hv] at this
  simpa using this

theorem FairDraw.sum {g : ℕ → ℕ} {K w : ℕ} {V : Finset ℕ} (h : FairDraw g K V w) (f : ℕ → ℕ) :
    ∑ r ∈ range K, f (g r) = w * ∑ v ∈ V, f v := by
  rw [← sum_fiberwise_of_maps_to (t := V) (g := g) (fun r hr => h.1 r (Finset.mem_range.1 hr)), mul_sum]
  refine sum_congr rfl fun v hv => ?_
  rw [sum_congr rfl (g := fun _ => f v) fun r hr => by rw [(mem_filter.1 hr).2], sum_const, h.2 v hv, smul_eq_mul]

/-- The number of sequences of `L` outputs that complete a given list of `j` samples of size `k`, when
`a` values of the first sample have been drawn. -/
def waysTo (K k w : ℕ) : ℕ → ℕ → ℕ → ℕ
  | 0, L, _ => K ^ L
  | j + 1, L, a =>
    if k ≤ a then waysTo K k w j L 0
    else
      match L with
      | 0 => 0
      | L + 1 => w * (a * waysTo K k w (j + 1) L a + (k - a) * waysTo K k w (j + 1) L (a + 1))
termination_by j L => (j, L)

theorem waysTo_done {K k w j L a : ℕ} (h : k ≤ a) : waysTo K k w (j + 1) L a = waysTo K k w j L 0 := by
  rw [waysTo.eq_def]
  simp only
  rw [if_pos h]

theorem waysTo_none {K k w j a : ℕ} (h : a < k) : waysTo K k w (j + 1) 0 a = 0 := by
  rw [waysTo.eq_def]
  simp only
  rw [if_neg (by omega)]

theorem waysTo_succ {K k w j L a : ℕ} (h : a < k) : waysTo K k w (j + 1) (L + 1) a =
    w * (a * waysTo K k w (j + 1) L a + (k - a) * waysTo K k w (j + 1) L (a + 1)) := by
  rw [waysTo.eq_def]
  simp only
  rw [if_neg (by omega)]

theorem countRaw_yields {g : ℕ → ℕ} {K w k : ℕ} {V : Finset ℕ} (hg : FairDraw g K V w) : ∀ (Ss : List (Finset ℕ)),
    (∀ S ∈ Ss, S ⊆ V ∧ S.card = k) → ∀ (L : ℕ) (A : Finset ℕ),
    A.card ≤ k → (A ⊆ Ss.headD A → countRaw K L (yields g k A Ss) = waysTo K k w Ss.length L A.card) ∧
      (¬ A ⊆ Ss.headD A → countRaw K L (yields g k A Ss) = 0) := by
  intro Ss
  induction Ss with
  | nil =>
    intro _ L A _
    refine ⟨fun _ => ?_, fun h => absurd (Finset.Subset.refl A) h⟩
    simp only [yields, countRaw_true, List.length_nil]
    rw [waysTo]
  | cons S Ss ih =>
    intro hS L
    obtain ⟨hSm, hSk⟩ := hS S (by simp)
    have hS' := fun T hT => hS T (List.mem_cons_of_mem _ hT)
    -- a completed sample
    have hdone : ∀ (L : ℕ) (A : Finset ℕ), A.card = k →
        (A ⊆ S → countRaw K L (yields g k A (S :: Ss)) = waysTo K k w (Ss.length + 1) L A.card) ∧
        (¬ A ⊆ S → countRaw K L (yields g k A (S :: Ss)) = 0) := by
      intro L A hA
      have hy : ∀ raw, yields g k A (S :: Ss) raw ↔ A = S ∧ yields g k ∅ Ss raw := by
        intro raw
        simp only [yields]
        rw [drawLoop_done (by omega)]
        constructor
        · rintro ⟨rest, h1, h2⟩
          cases h1
          exact ⟨rfl, h2⟩
        · rintro ⟨rfl, h2⟩
          exact ⟨raw, rfl, h2⟩
      constructor
      · intro hsub
        have hAS : A = S := Finset.eq_of_subset_of_card_le hsub (by omega)
        rw [countRaw_congr (Q := yields g k ∅ Ss) fun l _ _ => by rw [hy]; simp [hAS], waysTo_done (by omega)]
        have := (ih hS' L ∅ (by simp)).1 (Finset.empty_subset _)
        simpa using this
      · intro hsub
        rw [countRaw_congr (Q := fun _ => False) fun l _ _ => by
          rw [hy]
          constructor
          · rintro ⟨rfl, -⟩
            exact hsub (Finset.Subset.refl _)
          · exact False.elim, countRaw_false]
    simp only [List.headD_cons, List.length_cons]
    induction L with
    | zero =>
      intro A hA
      rcases hA.eq_or_lt with hA | hA
      · exact hdone 0 A hA
      · have h0 : countRaw K 0 (yields g k A (S :: Ss)) = 0 := by
          unfold countRaw
          rw [if_neg]
          simp only [yields]
          rw [drawLoop_nil hA]
          simp
        refine ⟨fun _ => ?_, fun _ => h0⟩
        rw [h0, waysTo_none hA]
    | succ L ihL =>
      intro A hA
      rcases hA.eq_or_lt with hA | hA
      · exact hdone (L + 1) A hA
      · have hstep : countRaw K (L + 1) (yields g k A (S :: Ss)) =
            w * ∑ v ∈ V, countRaw K L (yields g k (insert v A) (S :: Ss)) := by
          rw [← hg.sum fun v => countRaw K L (yields g k (insert v A) (S :: Ss))]
          rw [countRaw]
          refine sum_congr rfl fun r _ => countRaw_congr fun l _ _ => ?_
          simp only [yields]
          rw [drawLoop_cons hA]
        have hins : ∀ v, (insert v A).card ≤ k := fun v => (card_insert_le v A).trans hA
        constructor
        · intro hsub
          rw [hstep, waysTo_succ hA]
          congr 1
          -- values of `A`, of the rest of `S`, and others
          have hval : ∀ v ∈ V, countRaw K L (yields g k (insert v A) (S :: Ss)) =
              (if v ∈ A then waysTo K k w (Ss.length + 1) L A.card else 0) +
              (if v ∈ S \ A then waysTo K k w (Ss.length + 1) L (A.card + 1) else 0) := by
            intro v _
            by_cases hvA : v ∈ A
            · rw [if_pos hvA, if_neg (by simp [hvA]), Finset.insert_eq_of_mem hvA, add_zero]
              exact (ihL A hA.le).1 hsub
            · rw [if_neg hvA, zero_add]
              by_cases hvS : v ∈ S
              · rw [if_pos (by simp [hvA, hvS]), ← card_insert_of_notMem hvA]
                exact (ihL _ (hins v)).1 (Finset.insert_subset hvS hsub)
              · rw [if_neg (by simp [hvS])]
                exact (ihL _ (hins v)).2 fun h => hvS (h (Finset.mem_insert_self v A))
          rw [sum_congr rfl hval, sum_add_distrib, ← sum_filter, ← sum_filter, sum_const, sum_const, smul_eq_mul,
            smul_eq_mul]
          have c1 : V.filter (· ∈ A) = A := by
            ext v
            simp only [mem_filter]
            exact ⟨fun h => h.2, fun h => ⟨hSm (hsub h), h⟩⟩
          have c2 : V.filter (· ∈ S \ A) = S \ A := by
            ext v
            simp only [mem_filter]
            exact ⟨fun h => h.2, fun h => ⟨hSm (mem_sdiff.1 h).1, h⟩⟩
          rw [c1, c2, card_sdiff_of_subset hsub, hSk]
        · intro hsub
          rw [hstep]
          have : ∀ v ∈ V, countRaw K L (yields g k (insert v A) (S :: Ss)) = 0 := fun v _ =>
            (ihL _ (hins v)).2 fun h => hsub ((Finset.subset_insert v A).trans h)
          rw [sum_eq_zero this, mul_zero]

/-! ## The limit -/

/-- A contraction with converging input converges. -/
theorem tendsto_affine {c y : ℝ} (hc0 : 0 ≤ c) (hc : c < 1) {x s : ℕ → ℝ} (hx : ∀ n, x (n + 1) = c * x n + s n)
    (hs : Tendsto s atTop (𝓝 y)) : Tendsto x atTop (𝓝 (y / (1 - c))) := by
  have h1c : 0 < 1 - c := by linarith
  rw [Metric.tendsto_atTop] at hs ⊢
  intro ε hε
  obtain ⟨n0, hn0⟩ := hs (ε * (1 - c) / 2) (by positivity)
  set e : ℕ → ℝ := fun n => |x n - y / (1 - c)| with he
  have hstep : ∀ n ≥ n0, e (n + 1) ≤ c * e n + ε * (1 - c) / 2 := by
    intro n hn
    have h1 := hn0 n hn
    rw [Real.dist_eq] at h1
    have : x (n + 1) - y / (1 - c) = c * (x n - y / (1 - c)) + (s n - y) := by
      rw [hx]
      field_simp
      ring
    simp only [he]
    rw [this]
    refine (abs_add_le _ _).trans ?_
    rw [abs_mul, abs_of_nonneg hc0]
    linarith
  have hbound : ∀ n, e (n0 + n) ≤ c ^ n * e n0 + ε / 2 := by
    intro n
    induction n with
    | zero => simp only [pow_zero, add_zero, one_mul]; linarith
    | succ n ih =>
      have := hstep (n0 + n) (by omega)
      rw [← add_assoc, pow_succ]
      nlinarith [mul_le_mul_of_nonneg_left ih hc0]
  have hpow : Tendsto (fun n => c ^ n * e n0) atTop (𝓝 (0 * e n0)) :=
    (tendsto_pow_atTop_nhds_zero_of_lt_one hc0 hc).mul_const _
  rw [zero_mul, Metric.tendsto_atTop] at hpow
  obtain ⟨n1, hn1⟩ := hpow (ε / 2) (by positivity)
  refine ⟨n0 + n1, fun n hn => ?_⟩
  obtain ⟨i, rfl⟩ : ∃ i, n = n0 + i := ⟨n - n0, by omega⟩
  have h1 := hn1 i (by omega)
  rw [Real.dist_eq, sub_zero] at h1
  rw [Real.dist_eq]
  have h2 := hbound i
  have h3 := le_abs_self (c ^ i * e n0)
  simp only [he] at h2 h1 h3
  linarith

/-- The fraction of the sequences that complete the samples tends to its limit. -/
theorem tendsto_waysTo {K m w k : ℕ} (hK : K = m * w) (hw : 0 < w) (hm : 0 < m) (hkm : k ≤ m) : ∀ (j i : ℕ), i ≤ k →
    Tendsto (fun L => (waysTo K k w j L (k - i) : ℝ) / (K : ℝ) ^ L) atTop
      (𝓝 (if j = 0 then 1 else (((m - (k - i)).choose i : ℝ))⁻¹ * ((m.choose k : ℝ))⁻¹ ^ (j - 1))) := by
  have hKpos : (0 : ℝ) < K := by
    rw [hK]
    exact_mod_cast Nat.mul_pos hm hw
  intro j
  induction j with
  | zero =>
    intro i _
    rw [if_pos rfl]
    have : ∀ L, (waysTo K k w 0 L (k - i) : ℝ) / (K : ℝ) ^ L = 1 := by
      intro L
      rw [waysTo]
      push_cast
      exact div_self (by positivity)
    simp_rw [this]
    exact tendsto_const_nhds
  | succ j ih =>
    intro i
    rw [if_neg (by omega)]
    simp only [Nat.add_sub_cancel]
    induction i with
    | zero =>
      intro _
      have := ih k le_rfl
      simp only [Nat.sub_self, Nat.sub_zero] at this
      have e : ∀ L, waysTo K k w (j + 1) L (k - 0) = waysTo K k w j L 0 := by
        intro L
        exact waysTo_done (by omega)
      simp_rw [e]
      convert this using 2
      rcases Nat.eq_zero_or_pos j with rfl | hj
      · simp
      · rw [if_neg (by omega), Nat.choose_zero_right, Nat.cast_one, inv_one, one_mul]
        conv_lhs => rw [show j = (j - 1) + 1 by omega, pow_succ]
        rw [mul_comm]
    | succ i ihi =>
      intro hi
      have hprev := ihi (by omega)
      set a := k - (i + 1) with ha
      have ha1 : k - i = a + 1 := by omega
      rw [ha1] at hprev
      have hrec : ∀ L, (waysTo K k w (j + 1) (L + 1) a : ℝ) / (K : ℝ) ^ (L + 1) =
          (a : ℝ) / m * ((waysTo K k w (j + 1) L a : ℝ) / (K : ℝ) ^ L) +
          ((i + 1 : ℕ) : ℝ) / m * ((waysTo K k w (j + 1) L (a + 1) : ℝ) / (K : ℝ) ^ L) := by
        intro L
        have : waysTo K k w (j + 1) (L + 1) a = w * (a * waysTo K k w (j + 1) L a + (i + 1) * waysTo K k w (j + 1) L (a + 1)) := by
          rw [waysTo_succ (by omega), show k - a = i + 1 by omega]
        rw [this]
        push_cast
        have hKr : (K : ℝ) = m * w := by
          rw [hK]
          push_cast
          ring
        have hmr : (m : ℝ) ≠ 0 := by positivity
        have hwr : (w : ℝ) ≠ 0 := by positivity
        rw [pow_succ]
        nth_rw 2 [hKr]
        field_simp
      have hc : (a : ℝ) / m < 1 := by
        rw [div_lt_one (by exact_mod_cast hm)]
        exact_mod_cast (show a < m by omega)
      have hlim := tendsto_affine (c := (a : ℝ) / m)
        (x := fun L => (waysTo K k w (j + 1) L a : ℝ) / (K : ℝ) ^ L) (by positivity) hc hrec (hprev.const_mul _)
      convert hlim using 2
      have h2 := Nat.add_one_mul_choose_eq (m - (a + 1)) i
      have e1 : m - (a + 1) + 1 = m - a := by omega
      rw [e1] at h2
      have h3 : ((m - a : ℕ) : ℝ) * ((m - (a + 1)).choose i : ℝ) = ((m - a).choose (i + 1) : ℝ) * ((i + 1 : ℕ) : ℝ) := by
        exact_mod_cast h2
      have hma : ((m - a : ℕ) : ℝ) = m - a := by
        rw [Nat.cast_sub (by omega)]
      have hma0 : (m : ℝ) - a ≠ 0 := by
        rw [← hma]
        exact_mod_cast (show m - a ≠ 0 by omega)
      have hc1 : ((m - (a + 1)).choose i : ℝ) ≠ 0 := by
        exact_mod_cast (Nat.choose_pos (by omega)).ne'
      have hc2 : ((m - a).choose (i + 1) : ℝ) ≠ 0 := by
        exact_mod_cast (Nat.choose_pos (by omega)).ne'
      have hmr : (m : ℝ) ≠ 0 := by positivity
      have hc3 : 1 - (a : ℝ) / m ≠ 0 := by linarith
      rw [hma] at h3
      have hden : 1 - (a : ℝ) / m = (m - a) / m := by field_simp
      rw [hden]
      field_simp
      linear_combination ((m.choose k : ℝ)⁻¹ ^ j) * h3

end Albatross

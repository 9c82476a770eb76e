import Verif.RandomLawProps
import Mathlib.Algebra.BigOperators.Field

/-! # Events after successive samples, for C122 -/

namespace Albatross

open Finset

open Filter (Tendsto atTop)

open scoped Topology

/-! ## Specification -/

/-- The elements of a list at given positions, in order. -/
def elementsAt {α : Type} (xs : List α) (S : Finset ℕ) : List α :=
  (List.range xs.length).filterMap fun i => if i ∈ S then xs[i]? else none

/-- The fraction of the samples of size `n` that have a property. -/
noncomputable def sampleFraction {α : Type} (xs : List α) (n : ℕ) (P : List α → Prop) : ℝ :=
  open Classical in
  ((((range xs.length).powersetCard n).filter fun S => P (elementsAt xs S)).card : ℝ) / (xs.length.choose n : ℝ)

/-! ## Samples as sets of positions -/

theorem elementsAt_map_some {α : Type} (xs : List α) (S : Finset ℕ) :
    (elementsAt xs S).map some = ((List.range xs.length).filter (· ∈ S)).map (xs[·]?) := by
  have : ∀ l : List ℕ, (∀ i ∈ l, i < xs.length) →
      (l.filterMap fun i => if i ∈ S then xs[i]? else none).map some = (l.filter (· ∈ S)).map (xs[·]?) := by
    intro l
    induction l with
    | nil => intro _; rfl
    | cons i l ih =>
      intro h
      have hi := h i (by simp)
      have ih := ih fun k hk => h k (List.mem_cons_of_mem _ hk)
      by_cases hS : i ∈ S
      · simp only [List.filterMap_cons, hS, if_true, List.getElem?_eq_getElem hi, List.map_cons, ih, List.filter_cons,
          decide_true]
      · simp only [List.filterMap_cons, hS, if_false, ih, List.filter_cons, decide_false, Bool.false_eq_true]
  exact this _ fun i hi => List.mem_range.1 hi

theorem filter_range_eq {N : ℕ} {p : List ℕ} (hp : p.Pairwise (· < ·)) (hN : ∀ i ∈ p, i < N) :
    (List.range N).filter (· ∈ p.toFinset) = p := by
  apply sorted_ext
  · exact List.Pairwise.filter _ List.pairwise_lt_range
  · exact hp
  · intro x
    simp only [List.mem_filter, List.mem_range, List.mem_toFinset, decide_eq_true_eq]
    exact ⟨fun h => h.2, fun h => ⟨hN x h, h⟩⟩

theorem icc_eq_range {N : ℕ} (h : 0 < N) : Icc 0 (N - 1) = range N := by
  ext i
  simp only [mem_Icc, Finset.mem_range]
  omega

/-- A sample of elements is the list of elements at the positions that were drawn. -/
theorem randomRest_iff {α : Type} (M : ℕ) (b : Build) (u : UniformInt) (xs : List α) (n : ℕ) (h0 : 0 < xs.length)
    (hM : xs.length < M) (hn : n ≤ xs.length) (raw : List ℕ) (o : List α) (rest : List ℕ) :
    randomWithoutReplacementRest M b u xs n raw = .ok (o, rest) ↔
      ∃ p, randintWithoutReplacement M b u n 0 (xs.length - 1) raw = .ok (p, rest) ∧ o = elementsAt xs p.toFinset := by
  simp only [randomWithoutReplacementRest, except_bind_eq_ok, sizeSub_one h0 hM]
  have hok : ∀ p r, randintWithoutReplacement M b u n 0 (xs.length - 1) raw = .ok (p, r) →
      p.mapM (fun i => vecGet xs i) = .ok (elementsAt xs p.toFinset) := by
    intro p r h
    obtain ⟨-, h2, h3⟩ := C16_randint M b u n 0 (xs.length - 1) raw (by omega) (by omega) (by omega) (by omega) p r h
    have hp : ∀ i ∈ p, i < xs.length := fun i hi => by have := h3 i hi; omega
    obtain ⟨o, ho, hm⟩ := mapM_vecGet_valid xs p hp
    have h4 := elementsAt_map_some xs p.toFinset
    rw [filter_range_eq h2 hp, ← hm] at h4
    rw [ho, List.map_injective_iff.2 (Option.some_injective _) h4]
  constructor
  · rintro ⟨⟨p, r⟩, h1, o', h2, h3⟩
    cases h3
    rw [hok p r h1] at h2
    cases h2
    exact ⟨p, h1, rfl⟩
  · rintro ⟨p, h1, rfl⟩
    exact ⟨(p, rest), h1, _, hok p rest h1, rfl⟩

theorem randint_mem_powersetCard {M : ℕ} {b : Build} {u : UniformInt} {n N : ℕ} (h0 : 0 < N) (hM : N < M) (hn : n ≤ N)
    {raw p r : List ℕ} (h : randintWithoutReplacement M b u n 0 (N - 1) raw = .ok (p, r)) :
    p.toFinset ∈ (range N).powersetCard n := by
  obtain ⟨h1, h2, h3⟩ := C16_randint M b u n 0 (N - 1) raw (by omega) (by omega) (by omega) (by omega) p r h
  refine mem_powersetCard.2 ⟨fun i hi => ?_, ?_⟩
  · have := h3 i (List.mem_toFinset.1 hi)
    exact Finset.mem_range.2 (by omega)
  · rw [List.toFinset_card_of_nodup (h2.imp fun h => ne_of_lt h), h1]

/-! ## Events after given samples -/

/-- Successive calls return given sets and the outputs that are left have a property. -/
def after (call : List ℕ → Outcome (List ℕ × List ℕ)) : List (Finset ℕ) → (List ℕ → Prop) → List ℕ → Prop
  | [], Q, raw => Q raw
  | S :: Ss, Q, raw => ∃ o rest, call raw = .ok (o, rest) ∧ o.toFinset = S ∧ after call Ss Q rest

theorem after_append (call : List ℕ → Outcome (List ℕ × List ℕ)) (S : Finset ℕ) (Q : List ℕ → Prop) :
    ∀ (Ss : List (Finset ℕ)) (raw : List ℕ), after call (Ss ++ [S]) Q raw ↔
      after call Ss (fun raw => ∃ o rest, call raw = .ok (o, rest) ∧ o.toFinset = S ∧ Q rest) raw := by
  intro Ss
  induction Ss with
  | nil => intro raw; rfl
  | cons T Ss ih =>
    intro raw
    simp only [List.cons_append, after, ih]

theorem after_congr {call : List ℕ → Outcome (List ℕ × List ℕ)} {Q R : List ℕ → Prop} (h : ∀ raw, Q raw ↔ R raw) :
    ∀ (Ss : List (Finset ℕ)) (raw : List ℕ), after call Ss Q raw ↔ after call Ss R raw := by
  intro Ss
  induction Ss with
  | nil => intro raw; exact h raw
  | cons T Ss ih =>
    intro raw
    simp only [after, ih]

theorem after_false (call : List ℕ → Outcome (List ℕ × List ℕ)) : ∀ (Ss : List (Finset ℕ)) (raw : List ℕ),
    ¬ after call Ss (fun _ => False) raw := by
  intro Ss
  induction Ss with
  | nil => intro raw h; exact h
  | cons T Ss ih =>
    rintro raw ⟨o, rest, -, -, h⟩
    exact ih rest h

theorem after_exists {ι : Type} (call : List ℕ → Outcome (List ℕ × List ℕ)) (s : Finset ι) (Q : ι → List ℕ → Prop) :
    ∀ (Ss : List (Finset ℕ)) (raw : List ℕ), after call Ss (fun raw => ∃ i ∈ s, Q i raw) raw ↔
      ∃ i ∈ s, after call Ss (Q i) raw := by
  intro Ss
  induction Ss with
  | nil => intro raw; rfl
  | cons T Ss ih =>
    intro raw
    simp only [after, ih]
    constructor
    · rintro ⟨o, rest, h1, h2, i, hi, h3⟩
      exact ⟨i, hi, o, rest, h1, h2, h3⟩
    · rintro ⟨i, hi, o, rest, h1, h2, h3⟩
      exact ⟨o, rest, h1, h2, i, hi, h3⟩

/-- The sets that successive calls return are determined. -/
theorem after_unique {call : List ℕ → Outcome (List ℕ × List ℕ)} {Q R : List ℕ → Prop} : ∀ {Ss Ts : List (Finset ℕ)}
    {raw : List ℕ}, Ss.length = Ts.length → after call Ss Q raw → after call Ts R raw → Ss = Ts := by
  intro Ss
  induction Ss with
  | nil =>
    intro Ts raw hl _ _
    exact (List.length_eq_zero_iff.1 hl.symm).symm
  | cons S Ss ih =>
    intro Ts raw hl h1 h2
    cases Ts with
    | nil => simp at hl
    | cons T Ts =>
      obtain ⟨o, rest, h3, h4, h5⟩ := h1
      obtain ⟨o', rest', h3', h4', h5'⟩ := h2
      rw [h3] at h3'
      cases h3'
      rw [← h4, ← h4', ih (by simpa using hl) h5 h5']

theorem after_true_iff (call : List ℕ → Outcome (List ℕ × List ℕ)) : ∀ (Ss : List (Finset ℕ)) (raw : List ℕ),
    after call Ss (fun _ => True) raw ↔
      ∃ outs rest, successive call Ss.length raw = .ok (outs, rest) ∧ outs.map List.toFinset = Ss := by
  intro Ss
  induction Ss with
  | nil => intro raw; simp [after, successive]
  | cons S Ss ih =>
    intro raw
    simp only [after, ih, List.length_cons, successive, except_bind_eq_ok]
    constructor
    · rintro ⟨o, rest, h1, h2, outs, rest', h3, h4⟩
      exact ⟨o :: outs, rest', ⟨(o, rest), h1, (outs, rest'), h3, rfl⟩, by simp [h2, h4]⟩
    · rintro ⟨outs, rest, ⟨⟨o, r⟩, h1, ⟨os, r'⟩, h3, h5⟩, h4⟩
      cases h5
      simp only [List.map_cons, List.cons.injEq] at h4
      exact ⟨o, r, h1, h4.1, os, r', h3, h4.2⟩

section limits

variable {M : ℕ} {b : Build} {u : UniformInt} {n N K : ℕ}

theorem tendsto_after_true (h0 : 0 < N) (hM : N < M) (hn : n ≤ N) (hK : 0 < K) (hfair : IsFair u K 0 (N - 1))
    (Ss : List (Finset ℕ)) (hS : ∀ S ∈ Ss, S ∈ (range N).powersetCard n) :
    Tendsto (fun L => probability K L (after (randintWithoutReplacement M b u n 0 (N - 1)) Ss fun _ => True)) atTop
      (𝓝 (((N.choose n : ℝ)⁻¹) ^ Ss.length)) := by
  have hN : N - 1 - 0 + 1 = N := by omega
  have h := C121_uniform M b u n 0 (N - 1) K (by omega) (by omega) (by omega) (by omega) hK hfair (by simpa using hfair)
    Ss.length (fun i => {Ss.get i}) (fun i S hi => by
      rw [mem_singleton.1 hi, icc_eq_range h0]
      exact mem_powersetCard.1 (hS _ (List.get_mem _ _)))
  rw [hN] at h
  simp only [card_singleton, Nat.cast_one, one_div, prod_const, card_univ, Fintype.card_fin] at h
  refine h.congr fun L => ?_
  rw [probability_eq, probability_eq]
  congr 2
  refine countRaw_congr fun raw _ _ => ?_
  rw [after_true_iff]
  refine exists_congr fun outs => exists_congr fun rest => and_congr_right fun _ => ?_
  constructor
  · rintro ⟨S, hS, h⟩
    rw [h]
    have : S = Ss.get := by
      funext i
      exact mem_singleton.1 (hS i)
    rw [this, List.ofFn_get]
  · intro h
    exact ⟨Ss.get, fun i => mem_singleton_self _, by rw [h, List.ofFn_get]⟩

/-- One more sample: the probability is the sum over the samples. -/
theorem tendsto_after_step (h0 : 0 < N) (hM : N < M) (hn : n ≤ N) {Q : List ℕ → Prop}
    {R : Finset ℕ → List ℕ → Prop}
    (hQ : ∀ raw, Q raw ↔ ∃ p rest, randintWithoutReplacement M b u n 0 (N - 1) raw = .ok (p, rest) ∧ R p.toFinset rest)
    (Ss : List (Finset ℕ)) (lim : Finset ℕ → ℝ)
    (hlim : ∀ S ∈ (range N).powersetCard n,
      Tendsto (fun L => probability K L (after (randintWithoutReplacement M b u n 0 (N - 1)) (Ss ++ [S]) (R S))) atTop
        (𝓝 (lim S))) :
    Tendsto (fun L => probability K L (after (randintWithoutReplacement M b u n 0 (N - 1)) Ss Q)) atTop
      (𝓝 (∑ S ∈ (range N).powersetCard n, lim S)) := by
  refine (tendsto_finsetSum _ hlim).congr fun L => ?_
  simp only [probability_eq, ← Finset.sum_div, ← Nat.cast_sum]
  congr 2
  rw [← countRaw_sum ((range N).powersetCard n)
    (fun S => after (randintWithoutReplacement M b u n 0 (N - 1)) (Ss ++ [S]) (R S))]
  · refine countRaw_congr fun raw _ _ => ?_
    simp only [after_append]
    rw [← after_exists]
    refine after_congr (fun raw => ?_) Ss raw
    rw [hQ]
    constructor
    · rintro ⟨S, hS, p, rest, h1, rfl, h2⟩
      exact ⟨p, rest, h1, h2⟩
    · rintro ⟨p, rest, h1, h2⟩
      exact ⟨p.toFinset, randint_mem_powersetCard h0 hM hn h1, p, rest, h1, rfl, h2⟩
  · intro raw S _ T _ h1 h2
    have := after_unique (by simp) h1 h2
    simpa using this

end limits

end Albatross

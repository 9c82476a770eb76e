import Verif.RandomLaw
import Verif.RansacProps

/-! # C121: random subsets are uniform and independent

`randint_without_replacement` and `random_without_replacement` return every subset with the same
probability, and successive calls are independent of each other.  So the chance that RANSAC draws a
sample free of outliers is that of sampling without replacement. -/

namespace Albatross

open Finset

open Filter (Tendsto atTop)

open scoped Topology

/-! ## Specification -/

/-- The probability that `L` independent outputs, each uniform on the numbers below `K`, have a property. -/
noncomputable def probability (K L : ℕ) (P : List ℕ → Prop) : ℝ :=
  (Nat.card {w : Fin L → Fin K // P (List.ofFn fun i => (w i : ℕ))} : ℝ) / (K : ℝ) ^ L

/-- The distribution takes every value from `low` to `high` for the same number of the `K` outputs. -/
def IsFair (u : UniformInt) (K low high : ℕ) : Prop :=
  ∀ v, low ≤ v → v ≤ high → ((range K).filter fun r => u.draw low high r = v).card * (high - low + 1) = K

/-- Successive calls, each with the outputs that the previous one left. -/
def successive {α : Type} (call : List ℕ → Outcome (α × List ℕ)) : ℕ → List ℕ → Outcome (List α × List ℕ)
  | 0, raw => .ok ([], raw)
  | j + 1, raw => do
    let (s, raw) ← call raw
    let (ss, raw) ← successive call j raw
    pure (s :: ss, raw)

/-! ## The code as a draw loop -/

theorem toFinset_setInsert {v : ℕ} {l : List ℕ} : (setInsert v l).toFinset = insert v l.toFinset := by
  ext x
  simp [mem_setInsert]

theorem sampleLoop_drawLoop (u : UniformInt) (low high n : ℕ) : ∀ (raw samples : List ℕ),
    samples.Pairwise (· < ·) →
    (drawLoop (u.draw low high) n raw samples.toFinset = none → sampleLoop u low high n raw samples = .error .diverges) ∧
    ∀ A rest, drawLoop (u.draw low high) n raw samples.toFinset = some (A, rest) →
      ∃ out, sampleLoop u low high n raw samples = .ok (out, rest) ∧ out.toFinset = A := by
  intro raw
  induction raw with
  | nil =>
    intro s hs
    have hc : s.toFinset.card = s.length := List.toFinset_card_of_nodup (hs.imp fun h => ne_of_lt h)
    rw [sampleLoop]
    by_cases h : s.length < n
    · rw [if_pos h, drawLoop_nil (by omega)]
      exact ⟨fun _ => rfl, fun A rest h => by cases h⟩
    · rw [if_neg h, drawLoop_done (by omega)]
      refine ⟨fun h => absurd h (by simp), fun A rest h => ?_⟩
      cases h
      exact ⟨s, rfl, rfl⟩
  | cons r raw ih =>
    intro s hs
    have hc : s.toFinset.card = s.length := List.toFinset_card_of_nodup (hs.imp fun h => ne_of_lt h)
    rw [sampleLoop]
    by_cases h : s.length < n
    · rw [if_pos h, drawLoop_cons (by omega), ← toFinset_setInsert]
      exact ih _ (sorted_setInsert hs)
    · rw [if_neg h, drawLoop_done (by omega)]
      refine ⟨fun h => absurd h (by simp), fun A rest h => ?_⟩
      cases h
      exact ⟨s, rfl, rfl⟩

/-- What a call does, as a draw loop whose result is kept or thrown out. -/
theorem randint_drawLoop (M : ℕ) (b : Build) (u : UniformInt) (n low high K : ℕ) (hlh : low ≤ high) (hh : high < M)
    (hfull : high - low + 1 < M) (hn : n ≤ high - low + 1) (hK : 0 < K) (hfair : IsFair u K low high)
    (hfair0 : IsFair u K 0 (high - low)) :
    ∃ (g : ℕ → ℕ) (k w : ℕ) (V : Finset ℕ) (keep : Finset ℕ → Finset ℕ),
      V.card = high - low + 1 ∧ 0 < w ∧ k ≤ high - low + 1 ∧ (high - low + 1).choose k = (high - low + 1).choose n ∧
      FairDraw g K V w ∧
      (∀ S ⊆ Icc low high, S.card = n → ∃ U ⊆ V, U.card = k ∧ keep U = S) ∧
      (∀ U ⊆ V, ∀ U' ⊆ V, keep U = keep U' → U = U') ∧
      (∀ r, g r ∈ V) ∧
      ∀ raw, (drawLoop g k raw ∅ = none → randintWithoutReplacement M b u n low high raw = .error .diverges) ∧
        ∀ A rest, drawLoop g k raw ∅ = some (A, rest) →
          ∃ out, randintWithoutReplacement M b u n low high raw = .ok (out, rest) ∧ out.toFinset = keep A := by
  have hfairdraw : ∀ lo hi, lo ≤ hi → hi - lo = high - low → IsFair u K lo hi →
      0 < K / (high - low + 1) ∧ FairDraw (u.draw lo hi) K (Icc lo hi) (K / (high - low + 1)) := by
    intro lo hi hle hd hf
    rw [IsFair, hd] at hf
    have hw : ∀ v ∈ Icc lo hi, ((range K).filter fun r => u.draw lo hi r = v).card = K / (high - low + 1) := by
      intro v hv
      rw [mem_Icc] at hv
      exact Nat.eq_div_of_mul_eq_left (by omega) (hf v hv.1 hv.2)
    refine ⟨?_, fun r _ => mem_Icc.2 ⟨u.ge _ _ _ hle, u.le _ _ _ hle⟩, hw⟩
    have h1 := hf lo le_rfl hle
    rw [hw lo (mem_Icc.2 ⟨le_rfl, hle⟩)] at h1
    rcases Nat.eq_zero_or_pos (K / (high - low + 1)) with h | h
    · rw [h] at h1; omega
    · exact h
  by_cases hsmall : n ≤ (high - low + 1) / 2 + 1 ∧ n ≠ high - low + 1
  · obtain ⟨hw, hfd⟩ := hfairdraw low high hlh rfl hfair
    refine ⟨u.draw low high, n, K / (high - low + 1), Icc low high, id, by rw [Nat.card_Icc]; omega, hw, hn, rfl, hfd,
      fun S hS hc => ⟨S, hS, hc, rfl⟩, fun _ _ _ _ h => h, fun r => mem_Icc.2 ⟨u.ge _ _ _ hlh, u.le _ _ _ hlh⟩,
      fun raw => ?_⟩
    rw [randint_core M b u n low high raw hlh hh hfull hn (.inl hsmall.1), if_neg hsmall.2]
    exact sampleLoop_drawLoop u low high n raw [] List.Pairwise.nil
  · obtain ⟨hw, hfd⟩ := hfairdraw 0 (high - low) (by omega) (by omega) hfair0
    have hadd : Function.Injective fun x : ℕ => x + low := fun x y h => by simpa using h
    refine ⟨u.draw 0 (high - low), high - low + 1 - n, K / (high - low + 1), Icc 0 (high - low),
      fun A => (Icc 0 (high - low) \ A).image fun x => x + low, by rw [Nat.card_Icc]; omega, hw, by omega,
      Nat.choose_symm hn, hfd, ?_, ?_, fun r => mem_Icc.2 ⟨u.ge _ _ _ (by omega), u.le _ _ _ (by omega)⟩, ?_⟩
    · intro S hS hc
      refine ⟨Icc 0 (high - low) \ S.image (fun x => x - low), sdiff_subset, ?_, ?_⟩
      · have hinj : Set.InjOn (fun x => x - low) (S : Set ℕ) := by
          intro x hx y hy h
          have h1 := mem_Icc.1 (hS hx)
          have h2 := mem_Icc.1 (hS hy)
          simp only at h
          omega
        rw [card_sdiff_of_subset, card_image_of_injOn hinj, Nat.card_Icc, hc]
        · omega
        · intro y hy
          obtain ⟨x, hx, rfl⟩ := mem_image.1 hy
          have h1 := mem_Icc.1 (hS hx)
          exact mem_Icc.2 ⟨by omega, by omega⟩
      · dsimp only
        rw [Finset.sdiff_sdiff_eq_self, image_image]
        · rw [image_congr (g := id), image_id]
          intro x hx
          have h1 := mem_Icc.1 (hS hx)
          simp only [Function.comp, id]
          omega
        · intro y hy
          obtain ⟨x, hx, rfl⟩ := mem_image.1 hy
          have h1 := mem_Icc.1 (hS hx)
          exact mem_Icc.2 ⟨by omega, by omega⟩
    · intro U hU U' hU' h
      have h1 := Finset.image_injective hadd h
      rw [← Finset.sdiff_sdiff_eq_self hU, h1, Finset.sdiff_sdiff_eq_self hU']
    · intro raw
      have hcompl : ∀ t : List ℕ, ((if low ≠ 0 then (indicesComplement t (high - low + 1)).map fun el => (el + low) % M
          else indicesComplement t (high - low + 1)) : List ℕ).toFinset =
          (Icc 0 (high - low) \ t.toFinset).image fun x => x + low := by
        intro t
        have hc := (C06_indices_complement t (high - low + 1)).2.1
        ext y
        simp only [mem_image, mem_sdiff, mem_Icc, List.mem_toFinset]
        split
        · rw [List.mem_map]
          constructor
          · rintro ⟨x, hx, rfl⟩
            obtain ⟨h1, h2⟩ := (hc x).1 hx
            exact ⟨x, ⟨⟨by omega, by omega⟩, h2⟩, (Nat.mod_eq_of_lt (by omega)).symm⟩
          · rintro ⟨x, ⟨⟨h1, h2⟩, h3⟩, rfl⟩
            exact ⟨x, (hc x).2 ⟨by omega, h3⟩, Nat.mod_eq_of_lt (by omega)⟩
        · rename_i h0
          have h0 : low = 0 := by simpa using h0
          subst h0
          rw [hc]
          constructor
          · rintro ⟨h1, h2⟩
            exact ⟨y, ⟨⟨by omega, by omega⟩, h2⟩, rfl⟩
          · rintro ⟨x, ⟨⟨h1, h2⟩, h3⟩, rfl⟩
            exact ⟨by omega, h3⟩
      by_cases hall : n = high - low + 1
      · rw [randint_core M b u n low high raw hlh hh hfull hn (.inr hall), if_pos hall]
        rw [drawLoop_done (by simp; omega)]
        refine ⟨fun h => absurd h (by simp), fun A rest h => ?_⟩
        cases h
        refine ⟨_, rfl, ?_⟩
        ext y
        simp only [List.mem_toFinset, List.mem_range', mem_image, mem_sdiff, mem_Icc, notMem_empty, not_false_eq_true,
          and_true]
        constructor
        · rintro ⟨i, hi, rfl⟩
          exact ⟨i, by omega, by omega⟩
        · rintro ⟨x, hx, rfl⟩
          exact ⟨x, by omega, by omega⟩
      · rw [randint_flip M b u n low high raw hlh hh hfull (by omega) (by omega)]
        obtain ⟨h1, h2⟩ := sampleLoop_drawLoop u 0 (high - low) (high - low + 1 - n) raw [] List.Pairwise.nil
        constructor
        · intro h
          rw [h1 h]
        · intro A rest h
          obtain ⟨out, ho, rfl⟩ := h2 A rest h
          rw [ho]
          exact ⟨_, rfl, hcompl out⟩

/-- The loop returns values that can be drawn, in the wanted number. -/
theorem drawLoop_mem {g : ℕ → ℕ} {k : ℕ} {V : Finset ℕ} (hg : ∀ r, g r ∈ V) : ∀ (raw : List ℕ) (A B : Finset ℕ)
    (rest : List ℕ), A ⊆ V → drawLoop g k raw A = some (B, rest) → B ⊆ V := by
  intro raw
  induction raw with
  | nil =>
    intro A B rest hA h
    by_cases hc : A.card < k
    · rw [drawLoop_nil hc] at h; cases h
    · rw [drawLoop_done (by omega)] at h; cases h; exact hA
  | cons r raw ih =>
    intro A B rest hA h
    by_cases hc : A.card < k
    · rw [drawLoop_cons hc] at h
      exact ih _ B rest (insert_subset (hg r) hA) h
    · rw [drawLoop_done (by omega)] at h; cases h; exact hA

/-- Successive calls return given subsets exactly when successive draw loops do. -/
theorem successive_yields {call : List ℕ → Outcome (List ℕ × List ℕ)} {g : ℕ → ℕ} {k : ℕ} {V : Finset ℕ}
    {keep : Finset ℕ → Finset ℕ} (hg : ∀ r, g r ∈ V) (hinj : ∀ U ⊆ V, ∀ U' ⊆ V, keep U = keep U' → U = U')
    (hcall : ∀ raw, (drawLoop g k raw ∅ = none → call raw = .error .diverges) ∧
        ∀ A rest, drawLoop g k raw ∅ = some (A, rest) → ∃ out, call raw = .ok (out, rest) ∧ out.toFinset = keep A) :
    ∀ (Us : List (Finset ℕ)), (∀ U ∈ Us, U ⊆ V) → ∀ raw,
      (∃ outs rest, successive call Us.length raw = .ok (outs, rest) ∧ outs.map List.toFinset = Us.map keep) ↔
        yields g k ∅ Us raw := by
  intro Us
  induction Us with
  | nil =>
    intro _ raw
    simp [successive, yields]
  | cons U Us ih =>
    intro hU raw
    have hUs := fun T hT => hU T (List.mem_cons_of_mem _ hT)
    simp only [List.length_cons, successive, yields, except_bind_eq_ok]
    constructor
    · rintro ⟨outs, rest, ⟨⟨s, raw1⟩, h1, ⟨ss, raw2⟩, h2, h3⟩, h4⟩
      cases h3
      simp only [List.map_cons, List.cons.injEq] at h4
      cases hd : drawLoop g k raw ∅ with
      | none => rw [(hcall raw).1 hd] at h1; cases h1
      | some q =>
        obtain ⟨A, rest1⟩ := q
        obtain ⟨out, ho, hA⟩ := (hcall raw).2 A rest1 hd
        rw [ho] at h1
        obtain ⟨rfl, rfl⟩ : out = s ∧ rest1 = raw1 := by cases h1; exact ⟨rfl, rfl⟩
        have hAU : A = U := hinj A (drawLoop_mem hg _ _ _ _ (empty_subset _) hd) U (hU U (by simp)) (hA.symm.trans h4.1)
        subst hAU
        exact ⟨rest1, rfl, (ih hUs rest1).1 ⟨ss, raw2, h2, h4.2⟩⟩
    · rintro ⟨rest1, hd, hy⟩
      obtain ⟨out, ho, hA⟩ := (hcall raw).2 U rest1 hd
      obtain ⟨ss, raw2, h2, h3⟩ := (ih hUs rest1).2 hy
      exact ⟨out :: ss, raw2, ⟨(out, rest1), ho, (ss, raw2), h2, rfl⟩, by simp [hA, h3]⟩

/-! ## The counts -/

theorem probability_eq (K L : ℕ) (P : List ℕ → Prop) : probability K L P = (countRaw K L P : ℝ) / (K : ℝ) ^ L := by
  rw [probability, countRaw_eq_card]

/-- The number of sequences of outputs for which successive calls return given subsets depends on how many there are
only, and it is the number of the draw loop. -/
theorem count_successive (M : ℕ) (b : Build) (u : UniformInt) (n low high K : ℕ) (hlh : low ≤ high) (hh : high < M)
    (hfull : high - low + 1 < M) (hn : n ≤ high - low + 1) (hK : 0 < K) (hfair : IsFair u K low high)
    (hfair0 : IsFair u K 0 (high - low)) :
    ∃ k w, k ≤ high - low + 1 ∧ (high - low + 1).choose k = (high - low + 1).choose n ∧ 0 < w ∧
      K = (high - low + 1) * w ∧
      ∀ (j : ℕ) (S : Fin j → Finset ℕ), (∀ i, S i ⊆ Icc low high ∧ (S i).card = n) → ∀ L,
        countRaw K L (fun raw => ∃ outs rest,
          successive (randintWithoutReplacement M b u n low high) j raw = .ok (outs, rest) ∧
            outs.map List.toFinset = List.ofFn S) = waysTo K k w j L 0 := by
  obtain ⟨g, k, w, V, keep, hV, hw, hk, hchoose, hfd, hsurj, hinj, hg, hcall⟩ :=
    randint_drawLoop M b u n low high K hlh hh hfull hn hK hfair hfair0
  refine ⟨k, w, hk, hchoose, hw, hV ▸ hfd.total, fun j S hS L => ?_⟩
  choose U hUV hUk hUS using fun i => hsurj (S i) (hS i).1 (hS i).2
  have hmem : ∀ T ∈ List.ofFn U, T ⊆ V ∧ T.card = k := by
    intro T hT
    obtain ⟨i, rfl⟩ := List.mem_ofFn.1 hT
    exact ⟨hUV i, hUk i⟩
  have hkeep : (List.ofFn U).map keep = List.ofFn S := by
    rw [List.map_ofFn]
    congr 1
    funext i
    exact hUS i
  have h1 := (countRaw_yields hfd (List.ofFn U) hmem L ∅ (by simp)).1 (empty_subset _)
  rw [List.length_ofFn, card_empty] at h1
  rw [← h1]
  refine countRaw_congr fun raw _ _ => ?_
  have h2 := successive_yields hg hinj hcall (List.ofFn U) (fun T hT => (hmem T hT).1) raw
  rwa [List.length_ofFn, hkeep] at h2

/-- **C121.**  After any number of outputs, all lists of subsets are equally likely to have been the results of
successive calls. -/
theorem C121_equally_likely (M : ℕ) (b : Build) (u : UniformInt) (n low high K : ℕ) (hlh : low ≤ high) (hh : high < M)
    (hfull : high - low + 1 < M) (hn : n ≤ high - low + 1) (hK : 0 < K) (hfair : IsFair u K low high)
    (hfair0 : IsFair u K 0 (high - low)) (j L : ℕ) (S T : Fin j → Finset ℕ)
    (hS : ∀ i, S i ⊆ Icc low high ∧ (S i).card = n) (hT : ∀ i, T i ⊆ Icc low high ∧ (T i).card = n) :
    probability K L (fun raw => ∃ outs rest,
        successive (randintWithoutReplacement M b u n low high) j raw = .ok (outs, rest) ∧
          outs.map List.toFinset = List.ofFn S) =
      probability K L (fun raw => ∃ outs rest,
        successive (randintWithoutReplacement M b u n low high) j raw = .ok (outs, rest) ∧
          outs.map List.toFinset = List.ofFn T) := by
  obtain ⟨k, w, -, -, -, -, hcount⟩ := count_successive M b u n low high K hlh hh hfull hn hK hfair hfair0
  rw [probability_eq, probability_eq, hcount j S hS L, hcount j T hT L]

/-- **C121.**  As outputs become available, the probability that successive calls return a member of each of given
families of subsets tends to the product of the fractions of the subsets that are in them: every call returns a subset
uniform on all subsets of the size, independent of the others. -/
theorem C121_uniform (M : ℕ) (b : Build) (u : UniformInt) (n low high K : ℕ) (hlh : low ≤ high) (hh : high < M)
    (hfull : high - low + 1 < M) (hn : n ≤ high - low + 1) (hK : 0 < K) (hfair : IsFair u K low high)
    (hfair0 : IsFair u K 0 (high - low)) (j : ℕ) (F : Fin j → Finset (Finset ℕ))
    (hF : ∀ i, ∀ S ∈ F i, S ⊆ Icc low high ∧ S.card = n) :
    Tendsto (fun L => probability K L fun raw => ∃ outs rest,
        successive (randintWithoutReplacement M b u n low high) j raw = .ok (outs, rest) ∧
          ∃ S : Fin j → Finset ℕ, (∀ i, S i ∈ F i) ∧ outs.map List.toFinset = List.ofFn S) atTop
      (𝓝 (∏ i, ((F i).card : ℝ) / (high - low + 1).choose n)) := by
  obtain ⟨k, w, hk, hchoose, hw, hKm, hcount⟩ := count_successive M b u n low high K hlh hh hfull hn hK hfair hfair0
  have hlim := tendsto_waysTo hKm hw (by omega) hk j k le_rfl
  have hval : ∀ L, probability K L (fun raw => ∃ outs rest,
        successive (randintWithoutReplacement M b u n low high) j raw = .ok (outs, rest) ∧
          ∃ S : Fin j → Finset ℕ, (∀ i, S i ∈ F i) ∧ outs.map List.toFinset = List.ofFn S) =
      (∏ i, ((F i).card : ℝ)) * ((waysTo K k w j L (k - k) : ℝ) / (K : ℝ) ^ L) := by
    intro L
    rw [probability_eq]
    have h1 := countRaw_sum (K := K) (Fintype.piFinset F) (L := L) (fun (S : Fin j → Finset ℕ) raw => ∃ outs rest,
        successive (randintWithoutReplacement M b u n low high) j raw = .ok (outs, rest) ∧
          outs.map List.toFinset = List.ofFn S) (by
      rintro raw S - T - ⟨outs, rest, h1, h2⟩ ⟨outs', rest', h1', h2'⟩
      rw [h1] at h1'
      cases h1'
      exact List.ofFn_injective (h2.symm.trans h2'))
    rw [sum_congr rfl fun S hS => hcount j S (fun i => hF i _ (Fintype.mem_piFinset.1 hS i)) L, sum_const,
      Fintype.card_piFinset, smul_eq_mul] at h1
    rw [← mul_div_assoc, Nat.sub_self]
    congr 1
    rw [← Nat.cast_prod, ← Nat.cast_mul, ← h1]
    congr 1
    refine countRaw_congr fun raw _ _ => ?_
    constructor
    · rintro ⟨outs, rest, h2, S, h3, h4⟩
      exact ⟨S, Fintype.mem_piFinset.2 h3, outs, rest, h2, h4⟩
    · rintro ⟨S, h3, outs, rest, h2, h4⟩
      exact ⟨outs, rest, h2, S, Fintype.mem_piFinset.1 h3, h4⟩
  have hlimit : (∏ i, ((F i).card : ℝ) / (high - low + 1).choose n) = (∏ i, ((F i).card : ℝ)) *
      (if j = 0 then 1 else (((high - low + 1 - (k - k)).choose k : ℝ))⁻¹ *
        (((high - low + 1).choose k : ℝ))⁻¹ ^ (j - 1)) := by
    rw [prod_div_distrib, prod_const, card_univ, Fintype.card_fin, div_eq_mul_inv, Nat.sub_self, Nat.sub_zero, hchoose]
    congr 1
    split
    · next h => simp [h]
    · next h =>
      obtain ⟨i, rfl⟩ := Nat.exists_eq_succ_of_ne_zero h
      rw [Nat.succ_eq_add_one, Nat.add_sub_cancel, pow_succ, mul_inv, inv_pow, mul_comm]
  rw [hlimit]
  simp only [hval]
  exact hlim.const_mul _

/-! ## Sampling elements -/

theorem successive_length {α : Type} {call : List ℕ → Outcome (α × List ℕ)} : ∀ (j : ℕ) (raw : List ℕ) (outs : List α)
    (rest : List ℕ), successive call j raw = .ok (outs, rest) → outs.length = j := by
  intro j
  induction j with
  | zero =>
    intro raw outs rest h
    cases h
    rfl
  | succ j ih =>
    intro raw outs rest h
    simp only [successive, except_bind_eq_ok] at h
    obtain ⟨⟨s, raw1⟩, -, ⟨ss, raw2⟩, h2, h3⟩ := h
    cases h3
    simp [ih _ _ _ h2]

theorem successive_mem {α : Type} {call : List ℕ → Outcome (α × List ℕ)} : ∀ (j : ℕ) (raw : List ℕ) (outs : List α)
    (rest : List ℕ), successive call j raw = .ok (outs, rest) → ∀ p ∈ outs, ∃ raw1 r, call raw1 = .ok (p, r) := by
  intro j
  induction j with
  | zero =>
    intro raw outs rest h p hp
    cases h
    cases hp
  | succ j ih =>
    intro raw outs rest h p hp
    simp only [successive, except_bind_eq_ok] at h
    obtain ⟨⟨s, raw1⟩, h1, ⟨ss, raw2⟩, h2, h3⟩ := h
    cases h3
    rcases List.mem_cons.1 hp with rfl | hp
    · exact ⟨raw, raw1, h1⟩
    · exact ih _ _ _ h2 p hp

/-- The positions of the good elements. -/
def goodPositions {α : Type} (xs : List α) (good : α → Bool) : Finset ℕ :=
  (range xs.length).filter fun i => (xs[i]?).any good = true

theorem card_goodPositions {α : Type} (xs : List α) (good : α → Bool) :
    (goodPositions xs good).card = xs.countP good := by
  have h1 : xs.map some = (List.range xs.length).map (xs[·]?) := by
    apply List.ext_getElem
    · simp
    · intro i h1 h2
      simp at h1
      simp [h1]
  have h2 : (xs.map some).countP (fun o => o.any good) = xs.countP good := by
    rw [List.countP_map]
    rfl
  rw [← h2, h1, List.countP_map, goodPositions, List.countP_eq_length_filter]
  simp only [Finset.card, Finset.filter, Finset.range, Multiset.range, Multiset.filter_coe, Multiset.coe_card]
  congr 1
  apply List.filter_congr
  intro i _
  simp

theorem mapM_vecGet_valid {α : Type} (xs : List α) : ∀ p : List ℕ, (∀ i ∈ p, i < xs.length) →
    ∃ o, p.mapM (fun i => vecGet xs i) = .ok o ∧ o.map some = p.map (xs[·]?) := by
  intro p
  induction p with
  | nil => exact fun _ => ⟨[], rfl, rfl⟩
  | cons i p ih =>
    intro h
    obtain ⟨o, ho, hm⟩ := ih fun k hk => h k (List.mem_cons_of_mem _ hk)
    have hi := h i (by simp)
    refine ⟨xs[i] :: o, ?_, by simp [hm, hi]⟩
    rw [List.mapM_cons, vecGet_lt hi, ho]
    rfl

/-- A sample has an element that is not good when its positions are not all positions of good elements. -/
theorem bad_iff {α : Type} {xs : List α} {good : α → Bool} {p : List ℕ} {o : List α} (hp : ∀ i ∈ p, i < xs.length)
    (hm : o.map some = p.map (xs[·]?)) : (∃ x ∈ o, good x = false) ↔ ¬ p.toFinset ⊆ goodPositions xs good := by
  rw [not_subset]
  have hmem : ∀ x, x ∈ o ↔ ∃ i ∈ p, xs[i]? = some x := by
    intro x
    have : some x ∈ o.map some ↔ some x ∈ p.map (xs[·]?) := by rw [hm]
    simpa using this
  constructor
  · rintro ⟨x, hx, hg⟩
    obtain ⟨i, hi, hix⟩ := (hmem x).1 hx
    refine ⟨i, List.mem_toFinset.2 hi, fun h => ?_⟩
    have := (mem_filter.1 h).2
    rw [hix, Option.any_some, hg] at this
    cases this
  · rintro ⟨i, hi, hng⟩
    rw [List.mem_toFinset] at hi
    refine ⟨xs[i]'(hp i hi), (hmem _).2 ⟨i, hi, by simp⟩, ?_⟩
    rw [goodPositions, mem_filter, not_and] at hng
    have := hng (Finset.mem_range.2 (hp i hi))
    simpa [hp i hi] using this

theorem sizeSub_one {M N : ℕ} (h0 : 0 < N) (hN : N < M) : sizeSub M N 1 = N - 1 := by
  unfold sizeSub
  rw [show N + M - 1 = (N - 1) + M by omega, Nat.add_mod_right,
    Nat.mod_eq_of_lt (by omega)]

theorem successive_bad {α : Type} (M : ℕ) (b : Build) (u : UniformInt) (xs : List α) (n : ℕ) (good : α → Bool)
    (h0 : 0 < xs.length) (hM : xs.length < M) (hn : n ≤ xs.length) : ∀ (j : ℕ) (raw : List ℕ),
    (∃ outs rest, successive (randomWithoutReplacementRest M b u xs n) j raw = .ok (outs, rest) ∧
      ∀ o ∈ outs, ∃ x ∈ o, good x = false) ↔
    ∃ outs rest, successive (randintWithoutReplacement M b u n 0 (xs.length - 1)) j raw = .ok (outs, rest) ∧
      ∀ p ∈ outs, p.toFinset ∈ ((Icc 0 (xs.length - 1)).powersetCard n).filter (¬ · ⊆ goodPositions xs good) := by
  intro j
  induction j with
  | zero => intro raw; simp [successive]
  | succ j ih =>
    intro raw
    have hok : ∀ p r, randintWithoutReplacement M b u n 0 (xs.length - 1) raw = .ok (p, r) →
        (∀ i ∈ p, i < xs.length) ∧ p.toFinset ∈ (Icc 0 (xs.length - 1)).powersetCard n := by
      intro p r h
      obtain ⟨h1, h2, h3⟩ := C16_randint M b u n 0 (xs.length - 1) raw (by omega) (by omega) (by omega) (by omega) p r h
      refine ⟨fun i hi => by have := h3 i hi; omega, mem_powersetCard.2 ⟨fun i hi => ?_, ?_⟩⟩
      · exact mem_Icc.2 (h3 i (List.mem_toFinset.1 hi))
      · rw [List.toFinset_card_of_nodup (h2.imp fun h => ne_of_lt h), h1]
    simp only [successive, except_bind_eq_ok, randomWithoutReplacementRest, sizeSub_one h0 hM]
    constructor
    · rintro ⟨outs, rest, ⟨⟨o, raw1⟩, ⟨⟨p, r⟩, h1, o', h2, h3⟩, ⟨os, raw2⟩, h4, h5⟩, h6⟩
      cases h3
      cases h5
      obtain ⟨hp, hmemp⟩ := hok p r h1
      obtain ⟨o2, ho2, hm⟩ := mapM_vecGet_valid xs p hp
      rw [ho2] at h2
      cases h2
      obtain ⟨ps, raw3, h7, h8⟩ := (ih r).1 ⟨os, raw2, h4, fun o ho => h6 o (List.mem_cons_of_mem _ ho)⟩
      refine ⟨p :: ps, raw3, ⟨(p, r), h1, (ps, raw3), h7, rfl⟩, ?_⟩
      intro q hq
      rcases List.mem_cons.1 hq with rfl | hq
      · exact mem_filter.2 ⟨hmemp, (bad_iff hp hm).1 (h6 _ (by simp))⟩
      · exact h8 q hq
    · rintro ⟨outs, rest, ⟨⟨p, raw1⟩, h1, ⟨ps, raw2⟩, h4, h5⟩, h6⟩
      cases h5
      obtain ⟨hp, hmemp⟩ := hok p raw1 h1
      obtain ⟨o, ho, hm⟩ := mapM_vecGet_valid xs p hp
      obtain ⟨os, raw3, h7, h8⟩ := (ih raw1).2 ⟨ps, raw2, h4, fun q hq => h6 q (List.mem_cons_of_mem _ hq)⟩
      refine ⟨o :: os, raw3, ⟨(o, raw1), ⟨(p, raw1), h1, o, ho, rfl⟩, (os, raw3), h7, rfl⟩, ?_⟩
      intro q hq
      rcases List.mem_cons.1 hq with rfl | hq
      · exact (bad_iff hp hm).2 (mem_filter.1 (h6 p (by simp))).2
      · exact h8 q hq

theorem exists_ofFn_iff {j : ℕ} (l : List (Finset ℕ)) (hl : l.length = j) (G : Finset (Finset ℕ)) :
    (∃ S : Fin j → Finset ℕ, (∀ i, S i ∈ G) ∧ l = List.ofFn S) ↔ ∀ s ∈ l, s ∈ G := by
  subst hl
  constructor
  · rintro ⟨S, hS, h⟩ s hs
    rw [h] at hs
    obtain ⟨i, rfl⟩ := List.mem_ofFn.1 hs
    exact hS i
  · intro h
    exact ⟨l.get, fun i => h _ (List.get_mem _ _), (List.ofFn_get l).symm⟩

/-- **C121.**  Sampling elements without replacement, where some elements are good: the probability that each of `j`
successive samples of size `n` has an element that is not good tends to `(1 - C(g, n) / C(N, n)) ^ j`, with `g` the number
of good elements and `N` the number of all elements. -/
theorem C121_no_clean_sample {α : Type} (M : ℕ) (b : Build) (u : UniformInt) (xs : List α) (n K : ℕ) (good : α → Bool)
    (h0 : 0 < xs.length) (hM : xs.length < M) (hn : n ≤ xs.length) (hK : 0 < K)
    (hfair : IsFair u K 0 (xs.length - 1)) (j : ℕ) :
    Tendsto (fun L => probability K L fun raw => ∃ outs rest,
        successive (randomWithoutReplacementRest M b u xs n) j raw = .ok (outs, rest) ∧
          ∀ o ∈ outs, ∃ x ∈ o, good x = false) atTop
      (𝓝 ((1 - ((xs.countP good).choose n : ℝ) / (xs.length.choose n : ℝ)) ^ j)) := by
  set G := ((Icc 0 (xs.length - 1)).powersetCard n).filter (¬ · ⊆ goodPositions xs good) with hG
  have hN : xs.length - 1 - 0 + 1 = xs.length := by omega
  have h := C121_uniform M b u n 0 (xs.length - 1) K (by omega) (by omega) (by omega) (by omega) hK hfair
    (by simpa using hfair) j (fun _ => G) (fun _ S hS => mem_powersetCard.1 (mem_filter.1 hS).1)
  rw [hN] at h
  have hcard : (G.card : ℝ) / (xs.length.choose n : ℝ) =
      1 - ((xs.countP good).choose n : ℝ) / (xs.length.choose n : ℝ) := by
    have h1 := card_filter_add_card_filter_not (s := (Icc 0 (xs.length - 1)).powersetCard n)
      (fun S => S ⊆ goodPositions xs good)
    have h2 : ((Icc 0 (xs.length - 1)).powersetCard n).filter (fun S => S ⊆ goodPositions xs good) =
        (goodPositions xs good).powersetCard n := by
      ext S
      simp only [mem_filter, mem_powersetCard]
      constructor
      · rintro ⟨⟨-, h1⟩, h2⟩
        exact ⟨h2, h1⟩
      · rintro ⟨h1, h2⟩
        refine ⟨⟨fun i hi => ?_, h2⟩, h1⟩
        have := Finset.mem_range.1 (mem_filter.1 (h1 hi)).1
        exact mem_Icc.2 ⟨by omega, by omega⟩
    rw [h2, card_powersetCard, card_powersetCard, card_goodPositions, Nat.card_Icc, show xs.length - 1 + 1 - 0 = xs.length by
      omega] at h1
    have h3 : (0 : ℝ) < xs.length.choose n := by exact_mod_cast Nat.choose_pos hn
    rw [eq_sub_iff_add_eq, ← add_div, div_eq_one_iff_eq h3.ne', add_comm]
    exact_mod_cast h1
  rw [prod_const, card_univ, Fintype.card_fin, hcard] at h
  refine h.congr fun L => ?_
  rw [probability_eq, probability_eq]
  congr 2
  refine countRaw_congr fun raw _ _ => ?_
  rw [successive_bad M b u xs n good h0 hM hn j raw]
  refine exists_congr fun outs => exists_congr fun rest => and_congr_right fun ho => ?_
  rw [exists_ofFn_iff _ (by rw [List.length_map, successive_length _ _ _ _ ho]) G]
  simp only [List.mem_map, forall_exists_index, and_imp, forall_apply_eq_imp_iff₂]
  exact Iff.rfl

/-- **C121.**  The probability that successive calls return tends to one as outputs become available. -/
theorem C121_returns (M : ℕ) (b : Build) (u : UniformInt) (n low high K : ℕ) (hlh : low ≤ high) (hh : high < M)
    (hfull : high - low + 1 < M) (hn : n ≤ high - low + 1) (hK : 0 < K) (hfair : IsFair u K low high)
    (hfair0 : IsFair u K 0 (high - low)) (j : ℕ) :
    Tendsto (fun L => probability K L fun raw =>
        ∃ r, successive (randintWithoutReplacement M b u n low high) j raw = .ok r) atTop (𝓝 1) := by
  have h := C121_uniform M b u n low high K hlh hh hfull hn hK hfair hfair0 j
    (fun _ => (Icc low high).powersetCard n) (fun _ S hS => mem_powersetCard.1 hS)
  have hpos : (0 : ℝ) < (high - low + 1).choose n := by exact_mod_cast Nat.choose_pos hn
  rw [card_powersetCard, Nat.card_Icc, show high + 1 - low = high - low + 1 by omega, div_self hpos.ne', prod_const_one] at h
  refine h.congr fun L => ?_
  rw [probability_eq, probability_eq]
  congr 2
  refine countRaw_congr fun raw _ _ => ?_
  constructor
  · rintro ⟨outs, rest, ho, -⟩
    exact ⟨_, ho⟩
  · rintro ⟨⟨outs, rest⟩, ho⟩
    refine ⟨outs, rest, ho, ?_⟩
    rw [exists_ofFn_iff _ (by rw [List.length_map, successive_length _ _ _ _ ho])]
    intro s hs
    obtain ⟨p, hp, rfl⟩ := List.mem_map.1 hs
    obtain ⟨raw1, r, hpr⟩ := successive_mem j raw outs rest ho p hp
    obtain ⟨h1, h2, h3⟩ := C16_randint M b u n low high raw1 hlh hh hfull hn p r hpr
    refine mem_powersetCard.2 ⟨fun i hi => mem_Icc.2 (h3 i (List.mem_toFinset.1 hi)), ?_⟩
    rw [List.toFinset_card_of_nodup (h2.imp fun h => ne_of_lt h), h1]

/-! ## Examples -/

theorem modUniform_fair (low high w : ℕ) (h : low ≤ high) : IsFair modUniform ((high - low + 1) * w) low high := by
  intro v h1 h2
  have hm : 0 < high - low + 1 := by omega
  have : ((range ((high - low + 1) * w)).filter fun r => modUniform.draw low high r = v) =
      (range w).image fun q => (v - low) + (high - low + 1) * q := by
    ext r
    rw [mem_filter, Finset.mem_range, mem_image]
    simp only [modUniform, Finset.mem_range]
    constructor
    · rintro ⟨hr, hv⟩
      refine ⟨r / (high - low + 1), Nat.div_lt_of_lt_mul hr, ?_⟩
      have := Nat.mod_add_div r (high - low + 1)
      omega
    · rintro ⟨q, hq, rfl⟩
      refine ⟨?_, ?_⟩
      · have : (high - low + 1) * (q + 1) ≤ (high - low + 1) * w := Nat.mul_le_mul_left _ hq
        rw [Nat.mul_add, Nat.mul_one] at this
        omega
      · rw [Nat.add_mul_mod_self_left, Nat.mod_eq_of_lt (by omega)]
        omega
  rw [this, card_image_of_injective, card_range, mul_comm]
  intro x y hxy
  simp only at hxy
  exact Nat.eq_of_mul_eq_mul_left hm (by omega)

/-- Three of the numbers 5 to 9: two successive calls return `{5, 6, 7}` and then `{7, 8, 9}` with a probability that tends
to `1 / 100`. -/
example : Tendsto (fun L => probability 5 L fun raw => ∃ outs rest,
        successive (randintWithoutReplacement (2 ^ 64) .debug modUniform 3 5 9) 2 raw = .ok (outs, rest) ∧
          ∃ S : Fin 2 → Finset ℕ, (∀ i, S i ∈ (![{{5, 6, 7}}, {{7, 8, 9}}] : Fin 2 → Finset (Finset ℕ)) i) ∧
            outs.map List.toFinset = List.ofFn S) atTop
      (𝓝 (1 / 100)) := by
  have h := C121_uniform (2 ^ 64) .debug modUniform 3 5 9 5 (by norm_num) (by norm_num) (by norm_num) (by norm_num)
    (by norm_num) (modUniform_fair 5 9 1 (by norm_num)) (modUniform_fair 0 4 1 (by norm_num)) 2
    ![{{5, 6, 7}}, {{7, 8, 9}}] (by decide +kernel)
  rw [Fin.prod_univ_two, show Nat.choose (9 - 5 + 1) 3 = 10 by decide] at h
  convert h using 2
  norm_num

/-- Two of ten elements, seven of them good: no sample of three is clean with a probability that tends to `(8 / 15) ^ 3`. -/
example : Tendsto (fun L => probability 10 L fun raw => ∃ outs rest,
        successive (randomWithoutReplacementRest (2 ^ 64) .debug modUniform [0, 1, 2, 3, 4, 5, 6, 7, 8, 9] 2) 3 raw =
          .ok (outs, rest) ∧ ∀ o ∈ outs, ∃ x ∈ o, decide (x < 7) = false) atTop (𝓝 ((8 / 15) ^ 3)) := by
  have h := C121_no_clean_sample (2 ^ 64) .debug modUniform [0, 1, 2, 3, 4, 5, 6, 7, 8, 9] 2 10 (fun x => decide (x < 7))
    (by norm_num) (by norm_num) (by norm_num) (by norm_num) (modUniform_fair 0 9 1 (by norm_num)) 3
  convert h using 2
  rw [show List.countP (fun x => decide (x < 7)) [0, 1, 2, 3, 4, 5, 6, 7, 8, 9] = 7 by decide]
  norm_num [Nat.choose]

end Albatross

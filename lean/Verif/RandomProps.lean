import Verif.Random
import Verif.IndexingProps

/-! # Sampling without replacement: C16 -/

namespace Albatross

variable {α : Type}

section helpers

theorem sampleLoop_spec (u : UniformInt) (low high n : Nat) (hlh : low ≤ high) :
    ∀ (raw samples : List Nat), samples.Pairwise (· < ·) → (∀ x ∈ samples, low ≤ x ∧ x ≤ high) →
      samples.length ≤ n → ∀ out rest, sampleLoop u low high n raw samples = .ok (out, rest) →
      out.Pairwise (· < ·) ∧ (∀ x ∈ out, low ≤ x ∧ x ≤ high) ∧ out.length = n
  | [], samples, hs, hr, hl, out, rest, h => by
    rw [sampleLoop] at h
    split at h
    · simp at h
    · simp at h; obtain ⟨rfl, -⟩ := h; exact ⟨hs, hr, by omega⟩
  | r :: raw, samples, hs, hr, hl, out, rest, h => by
    rw [sampleLoop] at h
    split at h
    · next hlt =>
      refine sampleLoop_spec u low high n hlh raw _ (sorted_setInsert hs) ?_ ?_ out rest h
      · intro x hx
        rcases mem_setInsert.1 hx with rfl | hx
        · exact ⟨u.ge _ _ _ hlh, u.le _ _ _ hlh⟩
        · exact hr x hx
      · by_cases hm : u.draw low high r ∈ samples
        · rw [setInsert_of_mem hs hm]; omega
        · rw [length_setInsert hm]; omega
    · simp at h; obtain ⟨rfl, -⟩ := h; exact ⟨hs, hr, by omega⟩

/-- Number of distinct values still to come bounds what the loop can wait for. -/
theorem sampleLoop_returns (u : UniformInt) (low high n : Nat) :
    ∀ (raw samples : List Nat), samples.Pairwise (· < ·) →
      n ≤ (setOfList (samples ++ raw.map (u.draw low high))).length →
      ∃ r, sampleLoop u low high n raw samples = .ok r
  | [], samples, hs, hn => by
    rw [sampleLoop]
    rw [List.map_nil, List.append_nil, setOfList_of_sorted hs] at hn
    rw [if_neg (by omega)]; exact ⟨_, rfl⟩
  | r :: raw, samples, hs, hn => by
    rw [sampleLoop]
    split
    · refine sampleLoop_returns u low high n raw _ (sorted_setInsert hs) ?_
      have : setOfList (setInsert (u.draw low high r) samples ++ raw.map (u.draw low high)) =
          setOfList (samples ++ (r :: raw).map (u.draw low high)) := by
        refine sorted_ext (sorted_setOfList _) (sorted_setOfList _) fun x => ?_
        simp only [mem_setOfList, List.mem_append, mem_setInsert, List.map_cons, List.mem_cons]
        tauto
      rw [this]; exact hn
    · exact ⟨_, rfl⟩

theorem nChoices_eq {M low high : Nat} (hlh : low ≤ high) (_hh : high < M)
    (hfull : high - low + 1 < M) : numChoices M low high = high - low + 1 := by
  unfold numChoices sizeSub
  have h1 : high + M - low = (high - low) + M := by omega
  rw [h1, Nat.add_mod_right, Nat.mod_eq_of_lt (by omega : high - low < M),
    Nat.mod_eq_of_lt hfull]

theorem complement_length (l : List Nat) (n : Nat) (hs : l.Pairwise (· < ·)) (h : ∀ i ∈ l, i < n) :
    (indicesComplement l n).length + l.length = n := by
  have hc := C06_indices_complement l n
  have : (indicesComplement l n ++ l).Perm (List.range n) := by
    rw [List.perm_ext_iff_of_nodup]
    · intro i
      rw [List.mem_append, hc.2.1, List.mem_range]
      constructor
      · rintro (h1 | h1)
        · exact h1.1
        · exact h i h1
      · intro h1
        by_cases h2 : i ∈ l
        · exact .inr h2
        · exact .inl ⟨h1, h2⟩
    · rw [List.nodup_append]
      refine ⟨hc.1.imp fun h => ne_of_lt h, hs.imp fun h => ne_of_lt h, ?_⟩
      rintro a ha c hcm rfl
      exact ((hc.2.1 a).1 ha).2 hcm
    · exact List.nodup_range
  simpa using this.length_eq

/-- The directly sampled case. -/
theorem randint_core (M : Nat) (b : Build) (u : UniformInt) (n low high : Nat) (raw : List Nat)
    (hlh : low ≤ high) (hh : high < M) (hfull : high - low + 1 < M)
    (hn : n ≤ high - low + 1) (hsmall : n ≤ (high - low + 1) / 2 + 1 ∨ n = high - low + 1) :
    randintWithoutReplacement M b u n low high raw =
      if n = high - low + 1 then .ok (List.range' low n, raw) else sampleLoop u low high n raw [] := by
  rw [randintWithoutReplacement]
  simp only [nChoices_eq hlh hh hfull]
  rw [dif_neg (by omega)]
  split
  · rfl
  · rw [dif_neg (by omega), if_neg (by omega)]

theorem randint_flip (M : Nat) (b : Build) (u : UniformInt) (n low high : Nat) (raw : List Nat)
    (hlh : low ≤ high) (hh : high < M) (hfull : high - low + 1 < M)
    (hn : n < high - low + 1) (hlarge : n > (high - low + 1) / 2 + 1) :
    randintWithoutReplacement M b u n low high raw =
      match sampleLoop u 0 (high - low) (high - low + 1 - n) raw [] with
      | .error f => .error f
      | .ok (toThrowOut, raw) =>
        .ok (if low ≠ 0 then (indicesComplement toThrowOut (high - low + 1)).map
              fun el => (el + low) % M
            else indicesComplement toThrowOut (high - low + 1), raw) := by
  rw [randintWithoutReplacement]
  simp only [nChoices_eq hlh hh hfull]
  rw [dif_neg (by omega), if_neg (by omega), dif_pos (by omega)]
  have h1 : high - low + 1 - 1 = high - low := by omega
  rw [h1, randint_core M b u _ 0 (high - low) raw (by omega) (by omega) (by omega) (by omega)
    (by left; simp only [Nat.sub_zero]; omega), if_neg (by simp only [Nat.sub_zero]; omega)]
  rfl

end helpers

/-- C16: for every `n ≤ high - low + 1`, every generator and every finite sequence of its outputs,
if `randint_without_replacement` returns then it returns `n` distinct integers of `[low, high]` in
increasing order.  (The range must not be the whole of `std::size_t`, whose number of elements
wraps to 0.) -/
theorem C16_randint (M : Nat) (b : Build) (u : UniformInt) (n low high : Nat) (raw : List Nat)
    (hlh : low ≤ high) (hh : high < M) (hfull : high - low + 1 < M)
    (hn : n ≤ high - low + 1) (out rest : List Nat)
    (h : randintWithoutReplacement M b u n low high raw = .ok (out, rest)) :
    out.length = n ∧ out.Pairwise (· < ·) ∧ ∀ x ∈ out, low ≤ x ∧ x ≤ high := by
  by_cases hsmall : n ≤ (high - low + 1) / 2 + 1 ∨ n = high - low + 1
  · rw [randint_core M b u n low high raw hlh hh hfull hn hsmall] at h
    split at h
    · next heq =>
      simp at h; obtain ⟨rfl, -⟩ := h
      refine ⟨by simp, by simpa using List.pairwise_lt_range', ?_⟩
      intro x hx
      rw [List.mem_range'] at hx
      omega
    · obtain ⟨h1, h2, h3⟩ := sampleLoop_spec u low high n hlh raw [] List.Pairwise.nil (by simp)
        (by simp) out rest h
      exact ⟨h3, h1, h2⟩
  · rw [randint_flip M b u n low high raw hlh hh hfull (by omega) (by omega)] at h
    cases hs : sampleLoop u 0 (high - low) (high - low + 1 - n) raw [] with
    | error f => rw [hs] at h; simp at h
    | ok r =>
      obtain ⟨t, rest'⟩ := r
      obtain ⟨h1, h2, h3⟩ := sampleLoop_spec u 0 (high - low) _ (by omega) raw [] List.Pairwise.nil
        (by simp) (by simp) t rest' hs
      rw [hs] at h
      simp only [Except.ok.injEq, Prod.mk.injEq] at h
      obtain ⟨h, -⟩ := h
      have hc := C06_indices_complement t (high - low + 1)
      have hlen := complement_length t (high - low + 1) h1 (fun i hi => by have := h2 i hi; omega)
      have hout : out = (indicesComplement t (high - low + 1)).map (fun el => el + low) := by
        rw [← h]
        split
        · apply List.map_congr_left
          intro el hel
          have := ((hc.2.1 el).1 hel).1
          exact Nat.mod_eq_of_lt (by omega)
        · next h0 =>
          have : low = 0 := by simpa using h0
          subst this
          simp
      subst hout
      refine ⟨by rw [List.length_map]; omega, ?_, ?_⟩
      · rw [List.pairwise_map]
        exact hc.1.imp fun {a b} h => by omega
      · intro x hx
        obtain ⟨el, hel, rfl⟩ := List.mem_map.1 hx
        have := ((hc.2.1 el).1 hel).1
        omega

/-- C16, progress: the call returns as soon as the generator has delivered every value of the range
it is asked for (with a real generator this happens with probability one). -/
theorem C16_randint_returns (M : Nat) (b : Build) (u : UniformInt) (n low high : Nat) (raw : List Nat)
    (hlh : low ≤ high) (hh : high < M) (hfull : high - low + 1 < M)
    (hn : n ≤ high - low + 1)
    (hall : ∀ lo hi, (lo = low ∧ hi = high) ∨ (lo = 0 ∧ hi = high - low) → ∀ v, lo ≤ v → v ≤ hi →
      ∃ r ∈ raw, u.draw lo hi r = v) :
    ∃ r, randintWithoutReplacement M b u n low high raw = .ok r := by
  have hcover : ∀ lo hi, (lo = low ∧ hi = high) ∨ (lo = 0 ∧ hi = high - low) → lo ≤ hi →
      ∀ m, m ≤ high - low + 1 → m ≤ (setOfList ([] ++ raw.map (u.draw lo hi))).length := by
    intro lo hi hd hle m hm
    have hsub : List.Subperm (List.range' lo (high - low + 1))
        (setOfList ([] ++ raw.map (u.draw lo hi))) := by
      refine List.subperm_of_subset List.nodup_range' ?_
      intro v hv
      rw [List.mem_range'] at hv
      obtain ⟨i, hi', rfl⟩ := hv
      obtain ⟨r, hr, hrv⟩ := hall lo hi hd (lo + 1 * i) (by omega) (by omega)
      rw [mem_setOfList, List.nil_append, List.mem_map]
      exact ⟨r, hr, hrv⟩
    have := hsub.length_le
    rw [List.length_range'] at this
    omega
  by_cases hsmall : n ≤ (high - low + 1) / 2 + 1 ∨ n = high - low + 1
  · rw [randint_core M b u n low high raw hlh hh hfull hn hsmall]
    split
    · exact ⟨_, rfl⟩
    · exact sampleLoop_returns u low high n raw [] List.Pairwise.nil
        (hcover low high (.inl ⟨rfl, rfl⟩) hlh n hn)
  · rw [randint_flip M b u n low high raw hlh hh hfull (by omega) (by omega)]
    obtain ⟨r, hr⟩ := sampleLoop_returns u 0 (high - low) (high - low + 1 - n) raw []
      List.Pairwise.nil (hcover 0 (high - low) (.inr ⟨rfl, rfl⟩) (by omega) _ (by omega))
    rw [hr]
    exact ⟨_, rfl⟩

/-- C16: asking for more than there are is rejected in a debug build. -/
theorem C16_randint_too_many (M : Nat) (u : UniformInt) (n low high : Nat) (raw : List Nat)
    (hlh : low ≤ high) (hh : high < M) (hfull : high - low + 1 < M)
    (hn : high - low + 1 < n) :
    randintWithoutReplacement M .debug u n low high raw = .error .assertFail := by
  rw [randintWithoutReplacement]
  simp only [nChoices_eq hlh hh hfull]
  rw [dif_pos (by omega)]
  rfl

/-- C16: `random_without_replacement` returns `n` elements at distinct positions, in input order;
also for `n = 0` from an empty vector, where `xs.size() - 1` wraps. -/
theorem C16_random_without_replacement (M : Nat) (b : Build) (u : UniformInt) (xs : List α) (n : Nat)
    (raw : List Nat) (hlen : xs.length < M) (hn : n ≤ xs.length) (out : List α)
    (h : randomWithoutReplacement M b u xs n raw = .ok out) :
    ∃ pos : List Nat, pos.length = n ∧ pos.Pairwise (· < ·) ∧ out.map some = pos.map (xs[·]?) := by
  unfold randomWithoutReplacement at h
  rw [except_bind_eq_ok] at h
  obtain ⟨⟨pos, rest⟩, h1, h2⟩ := h
  have hmap : ∀ (p : List Nat) (o : List α), p.mapM (fun i => vecGet xs i) = .ok o →
      o.map some = p.map (xs[·]?) := by
    intro p
    induction p with
    | nil => intro o ho; simp at ho; subst ho; rfl
    | cons i t ih =>
      intro o ho
      rw [List.mapM_cons, except_bind_eq_ok] at ho
      obtain ⟨x, hx, ho⟩ := ho
      rw [except_bind_eq_ok] at ho
      obtain ⟨ys, hys, ho⟩ := ho
      simp at ho; subst ho
      rw [List.map_cons, List.map_cons, ih ys hys, vecGet_ok.1 hx]
  by_cases hx : xs.length = 0
  · have hn0 : n = 0 := by omega
    subst hn0
    have : sizeSub M xs.length 1 = M - 1 := by
      rw [hx, sizeSub, Nat.zero_add, Nat.mod_eq_of_lt (by omega)]
    rw [this, randintWithoutReplacement] at h1
    have hz : numChoices M 0 (M - 1) = 0 := by
      have h1 : M - 1 + M - 0 = (M - 1) + M := by omega
      have h2 : M - 1 + 1 = M := by omega
      rw [numChoices, sizeSub, h1, Nat.add_mod_right, Nat.mod_eq_of_lt (show M - 1 < M by omega), h2, Nat.mod_self]
    simp only [hz] at h1
    rw [dif_neg (by omega), if_pos trivial] at h1
    simp at h1
    obtain ⟨rfl, -⟩ := h1
    exact ⟨[], rfl, List.Pairwise.nil, hmap _ _ h2⟩
  · have hs : sizeSub M xs.length 1 = xs.length - 1 := by
      unfold sizeSub
      have : xs.length + M - 1 = (xs.length - 1) + M := by omega
      rw [this, Nat.add_mod_right, Nat.mod_eq_of_lt (by omega)]
    rw [hs] at h1
    obtain ⟨g1, g2, -⟩ := C16_randint M b u n 0 (xs.length - 1) raw (by omega) (by omega) (by omega)
      (by omega) pos rest h1
    exact ⟨pos, g1, g2, hmap _ _ h2⟩

/-! ## Non-vacuity -/

/-- A concrete distribution: reduction modulo the number of values. -/
def modUniform : UniformInt where
  draw low high r := low + r % (high - low + 1)
  ge low high r _ := by omega
  le low high r h := by
    have := Nat.mod_lt r (show high - low + 1 > 0 by omega)
    omega

example : randintWithoutReplacement (2 ^ 64) .debug modUniform 2 3 9 [5, 5, 1, 9] = .ok ([4, 8], [9]) := by
  decide +kernel

example : randintWithoutReplacement (2 ^ 64) .debug modUniform 6 3 9 [5, 5, 1] =
    .ok ([3, 4, 5, 6, 7, 9], [5, 1]) := by decide +kernel

example : randintWithoutReplacement (2 ^ 64) .debug modUniform 3 3 9 [5, 5, 1] = .error .diverges := by
  decide +kernel

example : randomWithoutReplacement (2 ^ 64) .debug modUniform ["a", "b", "c", "d"] 2 [7, 2] =
    .ok ["c", "d"] := by decide +kernel

example : randomWithoutReplacement (2 ^ 64) .ndebug modUniform ([] : List Nat) 1 [7] = .error .ub := by
  decide +kernel

end Albatross

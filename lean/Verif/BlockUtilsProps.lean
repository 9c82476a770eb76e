import Verif.BlockUtils
import Verif.BlockDiagonalProps
import Mathlib.Data.Matrix.Block

/-! # C69: grouped block operations equal the dense operations on the stacked blocks -/

namespace Albatross

open Matrix

/-! ## Specification -/

section spec
variable {K : Type} [LinearOrder K]

/-- The matrix stored for a key. -/
def groupBlock (m : SMap K DMat) (k : K) : DMat := (m.find? k).getD ⟨0, 0, fun _ _ => 0⟩

/-- The blocks of the given keys side by side; block `k` has `n k` columns. -/
def hstack (m : SMap K DMat) (ks : List K) (r : Nat) (n : Fin ks.length → Nat) :
    Matrix (Fin r) (Σ k, Fin (n k)) ℝ := of fun i s => (groupBlock m ks[s.1]).get i s.2

/-- The blocks of the given keys on top of each other; block `k` has `n k` rows. -/
def vstack (m : SMap K DMat) (ks : List K) (n : Fin ks.length → Nat) (c : Nat) :
    Matrix (Σ k, Fin (n k)) (Fin c) ℝ := of fun s j => (groupBlock m ks[s.1]).get s.2 j

end spec

/-! ## Helpers -/

theorem blockSum_loop (r c : Nat) (all : List DMat) : ∀ (xs pre : List DMat) (acc : DMat),
    all = pre ++ xs → acc.rows = r ∧ acc.cols = c → (∀ x ∈ xs, x.rows = r ∧ x.cols = c) →
    ∃ out, (List.range' pre.length xs.length).foldlM (fun out i => (do
        let y ← vecGet all i
        out.add y : Outcome DMat)) acc = .ok out ∧ out.rows = r ∧ out.cols = c ∧
      ∀ i j, out.get i j = acc.get i j + (xs.map fun x => x.get i j).sum := by
  intro xs
  induction xs with
  | nil =>
    intro pre acc _ ha _
    exact ⟨acc, rfl, ha.1, ha.2, fun i j => by simp⟩
  | cons x xs ih =>
    intro pre acc hall ha hx
    have hx0 := hx x (by simp)
    obtain ⟨out, h1, h2, h3, h4⟩ := ih (pre ++ [x]) ⟨acc.rows, acc.cols, fun i j => acc.get i j + x.get i j⟩
      (by rw [hall]; simp) ha fun y hy => hx y (List.mem_cons_of_mem _ hy)
    refine ⟨out, ?_, h2, h3, fun i j => ?_⟩
    · have hg : vecGet all pre.length = .ok x := by rw [hall]; simp [vecGet]
      have hadd : acc.add x = .ok ⟨acc.rows, acc.cols, fun i j => acc.get i j + x.get i j⟩ := by
        rw [DMat.add, if_pos ⟨by omega, by omega⟩]
      rw [List.length_cons, List.range'_succ, List.foldlM_cons, hg]
      simp only [hadd, bind, Except.bind]
      rw [List.length_append, List.length_singleton] at h1
      exact h1
    · rw [h4, List.map_cons, List.sum_cons, add_assoc]

theorem blockSum_ok (r c : Nat) (xs : List DMat) (hne : xs ≠ []) (hx : ∀ x ∈ xs, x.rows = r ∧ x.cols = c) :
    ∃ out, blockSum xs = .ok out ∧ out.rows = r ∧ out.cols = c ∧
      ∀ i j, out.get i j = (xs.map fun x => x.get i j).sum := by
  cases xs with
  | nil => exact absurd rfl hne
  | cons x xs =>
    obtain ⟨out, h1, h2, h3, h4⟩ := blockSum_loop r c (x :: xs) xs [x] x rfl (hx x (by simp))
      fun y hy => hx y (List.mem_cons_of_mem _ hy)
    exact ⟨out, h1, h2, h3, fun i j => by rw [h4, List.map_cons, List.sum_cons]⟩

section grouped
variable {K : Type} [LinearOrder K]

theorem SMap.mem_keys_iff {V : Type} {m : SMap K V} {k : K} : k ∈ m.keys ↔ ∃ v, m.find? k = some v := by
  constructor
  · intro h
    cases hf : m.find? k with
    | some v => exact ⟨v, rfl⟩
    | none =>
      rw [SMap.find?_eq_none] at hf
      obtain ⟨x, hx, rfl⟩ := List.mem_map.1 h
      exact absurd rfl (hf x hx)
  · rintro ⟨v, hv⟩
    exact List.mem_map.2 ⟨_, SMap.mem_of_find? hv, rfl⟩

theorem blockAccumulate_ok {X Y : Type} (b : Build) (lhs : SMap K X) (rhs : SMap K Y)
    (f : X → Y → Outcome DMat) (hk : rhs.keys = lhs.keys) (hne : lhs ≠ []) (r c : Nat)
    (M : Fin lhs.keys.length → Matrix (Fin r) (Fin c) ℝ)
    (hf : ∀ (k : Fin lhs.keys.length) (x : X) (y : Y), lhs.find? lhs.keys[k] = some x →
      rhs.find? lhs.keys[k] = some y → ∃ z, f x y = .ok z ∧ z.Is (M k)) :
    ∃ out, blockAccumulate b lhs rhs f = .ok out ∧ out.Is (∑ k, M k) := by
  have hlen : lhs.length = rhs.length := by
    have := congrArg List.length hk
    simpa [SMap.keys] using this.symm
  have hpos : lhs.length > 0 := List.length_pos_iff.2 hne
  have hex : ∀ k : Fin lhs.keys.length, ∃ z : DMat, (do
      albatrossAssert b (lhs.contains lhs.keys[k] && rhs.contains lhs.keys[k])
      let x ← lhs.at? lhs.keys[k]
      let y ← rhs.at? lhs.keys[k]
      f x y : Outcome DMat) = .ok z ∧ z.Is (M k) := by
    intro k
    obtain ⟨x, hx⟩ := SMap.mem_keys_iff.1 (List.getElem_mem k.2)
    obtain ⟨y, hy⟩ := SMap.mem_keys_iff.1 (show lhs.keys[k] ∈ rhs.keys by rw [hk]; exact List.getElem_mem k.2)
    obtain ⟨z, hz, hM⟩ := hf k x y hx hy
    refine ⟨z, ?_, hM⟩
    have hx' : lhs.find? lhs.keys[k] = some x := hx
    simp only [SMap.contains, SMap.at?, hx', hy, Option.isSome_some, Bool.and_self,
      albatrossAssert_true, bind, Except.bind]
    exact hz
  choose z hz hM using hex
  have hmap : applySerial (fun key => (do
      albatrossAssert b (lhs.contains key && rhs.contains key)
      let x ← lhs.at? key
      let y ← rhs.at? key
      f x y : Outcome DMat)) lhs.keys = .ok (List.ofFn z) := by
    rw [applySerial, mapM_ok_iff]
    apply List.ext_getElem
    · simp
    · intro i h1 h2
      simp only [List.getElem_map, List.getElem_ofFn]
      exact hz ⟨i, by simpa using h1⟩
  obtain ⟨out, h1, h2, h3, h4⟩ := blockSum_ok r c (List.ofFn z) (by
      intro h
      have h' := congrArg List.length h
      rw [List.length_ofFn, SMap.keys, List.length_map, List.length_nil] at h'
      omega) (by
      intro x hx
      obtain ⟨k, rfl⟩ := (List.mem_ofFn' z x).1 hx
      exact ⟨(hM k).1, (hM k).2.1⟩)
  refine ⟨out, ?_, h2, h3, fun i j => ?_⟩
  · rw [blockAccumulate, decide_eq_true hlen, decide_eq_true hpos]
    simp only [albatrossAssert_true]
    rw [hmap]
    exact h1
  · rw [h4, List.map_ofFn, List.sum_ofFn, Matrix.sum_apply]
    exact Finset.sum_congr rfl fun k _ => (hM k).2.2 i j

theorem groupBlock_of_find {m : SMap K DMat} {k : K} {x : DMat} (h : m.find? k = some x) :
    groupBlock m k = x := by rw [groupBlock, h]; rfl

/-! ## C69 -/

/-- C69: `block_sum` adds the blocks; no block at all is undefined behaviour. -/
theorem C69_sum (r c : Nat) (xs : List DMat) (hx : ∀ x ∈ xs, x.rows = r ∧ x.cols = c) :
    (xs ≠ [] → ∃ out, blockSum xs = .ok out ∧
      out.Is (∑ k : Fin xs.length, (xs[k].mat r c))) ∧
    (xs = [] → blockSum xs = .error .ub) := by
  refine ⟨fun hne => ?_, fun h => by subst h; rfl⟩
  obtain ⟨out, h1, h2, h3, h4⟩ := blockSum_ok r c xs hne hx
  refine ⟨out, h1, h2, h3, fun i j => ?_⟩
  rw [h4, Matrix.sum_apply]
  exact (Fin.sum_univ_fun_getElem xs fun x => x.get i j).symm

/-- C69: `block_accumulate` sums the function over the keys. -/
theorem C69_accumulate {X Y : Type} (b : Build) (lhs : SMap K X) (rhs : SMap K Y)
    (f : X → Y → Outcome DMat) (hk : rhs.keys = lhs.keys) (hne : lhs ≠ []) (r c : Nat)
    (M : Fin lhs.keys.length → Matrix (Fin r) (Fin c) ℝ)
    (hf : ∀ (k : Fin lhs.keys.length) (x : X) (y : Y), lhs.find? lhs.keys[k] = some x →
      rhs.find? lhs.keys[k] = some y → ∃ z, f x y = .ok z ∧ z.Is (M k)) :
    ∃ out, blockAccumulate b lhs rhs f = .ok out ∧ out.Is (∑ k, M k) :=
  blockAccumulate_ok b lhs rhs f hk hne r c M hf

/-- C69: `block_product` is the product of the blocks of the left side by side with the blocks of the
right stacked, in key order. -/
theorem C69_product (b : Build) (lhs rhs : SMap K DMat) (hk : rhs.keys = lhs.keys) (hne : lhs ≠ [])
    (r c : Nat) (n : Fin lhs.keys.length → Nat)
    (hl : ∀ k : Fin lhs.keys.length, (groupBlock lhs lhs.keys[k]).rows = r ∧ (groupBlock lhs lhs.keys[k]).cols = n k)
    (hr : ∀ k : Fin lhs.keys.length, (groupBlock rhs lhs.keys[k]).rows = n k ∧ (groupBlock rhs lhs.keys[k]).cols = c) :
    ∃ out, blockProductGrouped b lhs rhs = .ok out ∧
      out.Is (hstack lhs lhs.keys r n * vstack rhs lhs.keys n c) := by
  have h := blockAccumulate_ok b lhs rhs (fun x y => x.mul y) hk hne r c
    (fun k => of fun (i : Fin r) (j : Fin c) => ∑ l : Fin (n k), (groupBlock lhs lhs.keys[k]).get i l * (groupBlock rhs lhs.keys[k]).get l j)
    (by
      intro k x y hx hy
      have h1 := hl k
      have h2 := hr k
      rw [groupBlock_of_find hx] at h1
      rw [groupBlock_of_find hy] at h2
      refine ⟨⟨x.rows, y.cols, fun i j => ∑ l ∈ Finset.range x.cols, x.get i l * y.get l j⟩,
        by rw [DMat.mul, if_pos (by omega)], h1.1, h2.2, fun i j => ?_⟩
      simp only [of_apply, groupBlock_of_find hx, groupBlock_of_find hy, h1.2]
      exact Finset.sum_range fun l => x.get i l * y.get l j)
  obtain ⟨out, h1, h2⟩ := h
  refine ⟨out, h1, ?_⟩
  have e : hstack lhs lhs.keys r n * vstack rhs lhs.keys n c
      = ∑ k, of fun (i : Fin r) (j : Fin c) => ∑ l : Fin (n k), (groupBlock lhs lhs.keys[k]).get i l * (groupBlock rhs lhs.keys[k]).get l j := by
    ext i j
    rw [Matrix.mul_apply, Matrix.sum_apply, Fintype.sum_sigma]
    rfl
  rw [e]; exact h2

/-- C69: `block_inner_product` is the product of the transposed stacked left blocks with the stacked right
blocks. -/
theorem C69_inner_product (b : Build) (lhs rhs : SMap K DMat) (hk : rhs.keys = lhs.keys) (hne : lhs ≠ [])
    (r c : Nat) (n : Fin lhs.keys.length → Nat)
    (hl : ∀ k : Fin lhs.keys.length, (groupBlock lhs lhs.keys[k]).rows = n k ∧ (groupBlock lhs lhs.keys[k]).cols = r)
    (hr : ∀ k : Fin lhs.keys.length, (groupBlock rhs lhs.keys[k]).rows = n k ∧ (groupBlock rhs lhs.keys[k]).cols = c) :
    ∃ out, blockInnerProduct b lhs rhs = .ok out ∧
      out.Is ((vstack lhs lhs.keys n r)ᵀ * vstack rhs lhs.keys n c) := by
  have h := blockAccumulate_ok b lhs rhs (fun x y => x.transpose.mul y) hk hne r c
    (fun k => of fun (i : Fin r) (j : Fin c) => ∑ l : Fin (n k), (groupBlock lhs lhs.keys[k]).get l i * (groupBlock rhs lhs.keys[k]).get l j)
    (by
      intro k x y hx hy
      have h1 := hl k
      have h2 := hr k
      rw [groupBlock_of_find hx] at h1
      rw [groupBlock_of_find hy] at h2
      refine ⟨⟨x.cols, y.cols, fun i j => ∑ l ∈ Finset.range x.rows, x.get l i * y.get l j⟩,
        by rw [DMat.mul, if_pos (by simp only [DMat.transpose]; omega)]; rfl, h1.2, h2.2, fun i j => ?_⟩
      simp only [of_apply, groupBlock_of_find hx, groupBlock_of_find hy, h1.1]
      exact Finset.sum_range fun l => x.get l i * y.get l j)
  obtain ⟨out, h1, h2⟩ := h
  refine ⟨out, h1, ?_⟩
  have e : (vstack lhs lhs.keys n r)ᵀ * vstack rhs lhs.keys n c
      = ∑ k, of fun (i : Fin r) (j : Fin c) => ∑ l : Fin (n k), (groupBlock lhs lhs.keys[k]).get l i * (groupBlock rhs lhs.keys[k]).get l j := by
    ext i j
    rw [Matrix.mul_apply, Matrix.sum_apply, Fintype.sum_sigma]
    rfl
  rw [e]; exact h2

/-- C69: with assertions, `block_accumulate` (hence the products) only returns for equal, nonempty key
sets. -/
theorem C69_same_keys {X Y : Type} (lhs : SMap K X) (rhs : SMap K Y) (hwl : lhs.WF) (hwr : rhs.WF)
    (f : X → Y → Outcome DMat) (out : DMat) (h : blockAccumulate .debug lhs rhs f = .ok out) :
    lhs ≠ [] ∧ rhs.keys = lhs.keys := by
  by_cases hlen : lhs.length = rhs.length
  · by_cases hpos : lhs.length > 0
    · refine ⟨by rintro rfl; simp at hpos, ?_⟩
      rw [blockAccumulate, decide_eq_true hlen, decide_eq_true hpos] at h
      simp only [albatrossAssert_true] at h
      cases hs : applySerial (fun key => (do
          albatrossAssert .debug (lhs.contains key && rhs.contains key)
          let x ← lhs.at? key
          let y ← rhs.at? key
          f x y : Outcome DMat)) lhs.keys with
      | error e => rw [hs] at h; simp [bind, Except.bind] at h
      | ok zs =>
        rw [applySerial, mapM_ok_iff] at hs
        have hsub : lhs.keys ⊆ rhs.keys := by
          intro k hk
          obtain ⟨i, hi, rfl⟩ := List.getElem_of_mem hk
          have := congrArg (fun l => l[i]?) hs
          simp only [List.getElem?_map, List.getElem?_eq_getElem hi, Option.map_some] at this
          by_contra hc
          have hcont : rhs.contains lhs.keys[i] = false := by
            rw [SMap.contains]
            cases hfi : rhs.find? lhs.keys[i] with
            | none => rfl
            | some v => exact absurd (SMap.mem_keys_iff.2 ⟨v, hfi⟩) hc
          rw [hcont, Bool.and_false] at this
          cases hz : zs[i]? with
          | none => rw [hz] at this; simp at this
          | some z => rw [hz] at this; simp [albatrossAssert, bind, Except.bind] at this
        have hperm : lhs.keys.Perm rhs.keys := by
          have hnd : lhs.keys.Nodup := by
            rw [SMap.keys, List.Nodup, List.pairwise_map]
            exact hwl.imp fun h => ne_of_lt h
          exact (hnd.subperm hsub).perm_of_length_le (by simp [SMap.keys, hlen])
        have s1 : lhs.keys.Pairwise (· < ·) := by rw [SMap.keys, List.pairwise_map]; exact hwl
        have s2 : rhs.keys.Pairwise (· < ·) := by rw [SMap.keys, List.pairwise_map]; exact hwr
        exact hperm.symm.eq_of_pairwise (fun a b _ _ h1 h2 => absurd (lt_trans h1 h2) (lt_irrefl a)) s2 s1
    · rw [blockAccumulate, decide_eq_true hlen, decide_eq_false hpos] at h
      simp [albatrossAssert, bind, Except.bind] at h
  · rw [blockAccumulate, decide_eq_false hlen] at h
    simp [albatrossAssert, bind, Except.bind] at h

/-- Keyed maps built entry by entry. -/
theorem applyMapSerial_ok (f : K → DMat → Outcome DMat) (m : SMap K DMat) (hw : m.WF)
    (g : Fin m.keys.length → DMat)
    (h : ∀ k : Fin m.keys.length, f m.keys[k] (groupBlock m m.keys[k]) = .ok (g k)) :
    ∃ out, applyMapSerial f m = .ok out ∧ out.keys = m.keys ∧ out.WF ∧
      ∀ k : Fin m.keys.length, groupBlock out m.keys[k] = g k := by
  have hlo : (List.ofFn g).length = m.length := by rw [List.length_ofFn, SMap.keys, List.length_map]
  have hmap : (m.mapM fun x => f x.1 x.2) = .ok (List.ofFn g) := by
    rw [mapM_ok_iff]
    apply List.ext_getElem
    · rw [List.length_map, List.length_map, hlo]
    · intro i h1 h2
      simp only [List.getElem_map, List.getElem_ofFn]
      have hi : i < m.keys.length := by simpa [SMap.keys] using h1
      have hk : m.keys[i] = (m[i]'(by simpa [SMap.keys] using hi)).1 := by simp [SMap.keys]
      have hb : groupBlock m m.keys[i] = (m[i]'(by simpa [SMap.keys] using hi)).2 := by
        apply groupBlock_of_find
        apply SMap.find?_of_mem hw
        rw [hk]; exact List.getElem_mem _
      have := h ⟨i, hi⟩
      simp only [Fin.getElem_fin] at this
      rw [hb, hk] at this
      exact this
  have hkeys : ((m.map Prod.fst).zip (List.ofFn g)).map Prod.fst = m.map Prod.fst := by
    rw [List.map_fst_zip]; rw [List.length_map, hlo]
  have hwf : SMap.WF ((m.map Prod.fst).zip (List.ofFn g)) := by
    have := List.pairwise_map.2 (show m.Pairwise (fun a b => a.1 < b.1) from hw)
    rw [← hkeys] at this
    exact List.pairwise_map.1 this
  refine ⟨(m.map Prod.fst).zip (List.ofFn g), ?_, hkeys, hwf, fun k => ?_⟩
  · rw [applyMapSerial_eq _ _ hw, hmap]; rfl
  · apply groupBlock_of_find
    apply SMap.find?_of_mem hwf
    rw [List.mem_iff_getElem]
    have hk2 : k.1 < m.length := by simpa [SMap.keys] using k.2
    refine ⟨k, ?_, ?_⟩
    · rw [List.length_zip, List.length_map, hlo]; omega
    · rw [List.getElem_zip, List.getElem_ofFn]; rfl

/-- C69: `block_diag_solve` multiplies the stacked right hand side by the inverse of the block diagonal
matrix of the left; the result has the keys of the right hand side. -/
theorem C69_diag_solve (lhs : SMap K LdltBlock) (rhs : SMap K DMat) (hw : rhs.WF) (c : Nat)
    (n : Fin rhs.keys.length → Nat) (F : ∀ k, Ldlt (Fin (n k))) (A : ∀ k, Matrix (Fin (n k)) (Fin (n k)) ℝ)
    (hl : ∀ k : Fin rhs.keys.length, lhs.find? rhs.keys[k] = some ⟨n k, F k⟩)
    (hF : ∀ k, (F k).Factors (A k)) (hA : ∀ k, IsUnit (A k).det)
    (hr : ∀ k : Fin rhs.keys.length, (groupBlock rhs rhs.keys[k]).rows = n k ∧ (groupBlock rhs rhs.keys[k]).cols = c) :
    ∃ out, blockDiagSolve lhs rhs = .ok out ∧ out.keys = rhs.keys ∧
      (∀ k : Fin rhs.keys.length, (groupBlock out rhs.keys[k]).rows = n k ∧ (groupBlock out rhs.keys[k]).cols = c) ∧
      vstack out rhs.keys n c = (blockDiagonal' A)⁻¹ * vstack rhs rhs.keys n c := by
  have hex : ∀ k : Fin rhs.keys.length, ∃ z : DMat, (do
      let l ← lhs.at? rhs.keys[k]
      l.solveDense (groupBlock rhs rhs.keys[k]) : Outcome DMat) = .ok z ∧
      z.Is ((A k)⁻¹ * (groupBlock rhs rhs.keys[k]).mat (n k) c) := by
    intro k
    have h1 := hr k
    have hk := hl k
    refine ⟨⟨n k, (groupBlock rhs rhs.keys[k]).cols, fun i j =>
      if h : i < n k ∧ j < (groupBlock rhs rhs.keys[k]).cols then
        (⟨n k, F k⟩ : LdltBlock).solve (of fun (a : Fin (n k)) (l : Fin (groupBlock rhs rhs.keys[k]).cols) =>
          (groupBlock rhs rhs.keys[k]).get a l) ⟨i, h.1⟩ ⟨j, h.2⟩ else 0⟩, ?_, rfl, h1.2, fun i j => ?_⟩
    · simp only [SMap.at?, hk, bind, Except.bind, LdltBlock.solveDense]
      rw [if_pos h1.1]
    · simp only
      have := j.2
      rw [dif_pos (by omega), LdltBlock.solve]
      have hs := ((hF k).represents (hA k)).2 _ (of fun (a : Fin (n k)) (l : Fin (groupBlock rhs rhs.keys[k]).cols) =>
        (groupBlock rhs rhs.keys[k]).get a l)
      refine (congrFun (congrFun hs i) ⟨j, by omega⟩).trans ?_
      rw [Matrix.mul_apply, Matrix.mul_apply]
      rfl
  choose z hz hM using hex
  obtain ⟨out, h1, h2, -, h4⟩ := applyMapSerial_ok (fun key x => (do
      let l ← lhs.at? key
      l.solveDense x : Outcome DMat)) rhs hw z hz
  refine ⟨out, h1, h2, fun k => by rw [h4]; exact ⟨(hM k).1, (hM k).2.1⟩, ?_⟩
  have hinv : (blockDiagonal' A)⁻¹ = blockDiagonal' fun k => (A k)⁻¹ := by
    apply inv_eq_right_inv
    rw [← blockDiagonal'_mul]
    have : (fun k => A k * (A k)⁻¹) = fun k => (1 : Matrix (Fin (n k)) (Fin (n k)) ℝ) := by
      funext k; exact mul_nonsing_inv _ (hA k)
    rw [this]; exact blockDiagonal'_one
  rw [hinv]
  ext ⟨k, i⟩ j
  rw [Matrix.mul_apply, Fintype.sum_sigma, Finset.sum_eq_single k]
  · simp only [vstack, of_apply, blockDiagonal'_apply_eq]
    rw [h4, (hM k).2.2 i j, Matrix.mul_apply]
    rfl
  · intro k' _ hk'
    apply Finset.sum_eq_zero
    intro a _
    rw [blockDiagonal'_apply_ne _ _ _ (Ne.symm hk'), zero_mul]
  · simp

/-- C69: `block_subtract` subtracts the stacked blocks. -/
theorem C69_subtract (b : Build) (lhs rhs : SMap K DMat) (hw : rhs.WF) (hk : lhs.keys = rhs.keys) (c : Nat)
    (n : Fin rhs.keys.length → Nat)
    (hl : ∀ k : Fin rhs.keys.length, (groupBlock lhs rhs.keys[k]).rows = n k ∧ (groupBlock lhs rhs.keys[k]).cols = c)
    (hr : ∀ k : Fin rhs.keys.length, (groupBlock rhs rhs.keys[k]).rows = n k ∧ (groupBlock rhs rhs.keys[k]).cols = c) :
    ∃ out, blockSubtract b lhs rhs = .ok out ∧ out.keys = rhs.keys ∧
      (∀ k : Fin rhs.keys.length, (groupBlock out rhs.keys[k]).rows = n k ∧ (groupBlock out rhs.keys[k]).cols = c) ∧
      vstack out rhs.keys n c = vstack lhs rhs.keys n c - vstack rhs rhs.keys n c := by
  have hlen : lhs.length = rhs.length := by
    have := congrArg List.length hk
    simpa [SMap.keys] using this
  obtain ⟨out, h1, h2, -, h4⟩ := applyMapSerial_ok (fun key x => (do
      let l ← lhs.at? key
      l.sub x : Outcome DMat)) rhs hw (fun k => ⟨n k, c, fun i j => (groupBlock lhs rhs.keys[k]).get i j -
        (groupBlock rhs rhs.keys[k]).get i j⟩) (by
      intro k
      have e1 := hl k
      have e2 := hr k
      obtain ⟨x, hx⟩ := SMap.mem_keys_iff.1 (show rhs.keys[k] ∈ lhs.keys by rw [hk]; exact List.getElem_mem k.2)
      rw [groupBlock_of_find hx] at e1 ⊢
      simp only [SMap.at?, hx, bind, Except.bind, DMat.sub]
      rw [if_pos (by omega), e1.1, e1.2])
  refine ⟨out, ?_, h2, fun k => by rw [h4]; exact ⟨rfl, rfl⟩, ?_⟩
  · rw [blockSubtract, decide_eq_true hlen]
    simp only [albatrossAssert_true]
    exact h1
  · ext ⟨k, i⟩ j
    simp only [vstack, of_apply, Matrix.sub_apply]
    rw [h4]

/-- C69: a key of the right hand side without counterpart on the left makes `block_diag_solve` throw. -/
theorem C69_missing_key (lhs : SMap K LdltBlock) (k : K) (x : DMat) (rhs : SMap K DMat)
    (h : k ∉ lhs.keys) : blockDiagSolve lhs ((k, x) :: rhs) = .error .thrown := by
  have : lhs.find? k = none := by
    cases hf : lhs.find? k with
    | none => rfl
    | some v => exact absurd (SMap.mem_keys_iff.2 ⟨v, hf⟩) h
  rw [blockDiagSolve, applyMapSerial, List.foldlM_cons]
  simp only [SMap.at?, this, bind, Except.bind]

end grouped

/-! ## Example: two groups of different sizes -/

/-- `1 × 2` and `1 × 1` blocks on the left. -/
noncomputable def demoLhs : SMap Nat DMat := [(3, ⟨1, 2, fun _ j => j + 1⟩), (7, ⟨1, 1, fun _ _ => 5⟩)]

/-- `2 × 1` and `1 × 1` blocks on the right. -/
noncomputable def demoRhs : SMap Nat DMat := [(3, ⟨2, 1, fun i _ => i + 2⟩), (7, ⟨1, 1, fun _ _ => 4⟩)]

/-- The hypotheses of `C69_product` hold and the product is `1·2 + 2·3 + 5·4 = 28`. -/
example : ∃ out, blockProductGrouped .debug demoLhs demoRhs = .ok out ∧ out.rows = 1 ∧ out.cols = 1 ∧
    out.get 0 0 = 28 := by
  let n : Fin demoLhs.keys.length → Nat := fun k => (groupBlock demoLhs demoLhs.keys[k]).cols
  obtain ⟨out, h1, h2, h3, h4⟩ := C69_product .debug demoLhs demoRhs rfl (by simp [demoLhs]) 1 1 n
    (by intro k; fin_cases k <;> exact ⟨rfl, rfl⟩) (by intro k; fin_cases k <;> exact ⟨rfl, rfl⟩)
  refine ⟨out, h1, h2, h3, ?_⟩
  have := h4 0 0
  rw [Matrix.mul_apply, Fintype.sum_sigma] at this
  refine this.trans ?_
  have e : (∑ x : Fin demoLhs.keys.length, ∑ y : Fin (n x),
      (groupBlock demoLhs demoLhs.keys[x]).get 0 y * (groupBlock demoRhs demoLhs.keys[x]).get y 0)
      = (∑ y : Fin 2, (groupBlock demoLhs 3).get 0 y * (groupBlock demoRhs 3).get y 0) +
        ∑ y : Fin 1, (groupBlock demoLhs 7).get 0 y * (groupBlock demoRhs 7).get y 0 :=
    Fin.sum_univ_two _
  refine e.trans ?_
  simp [groupBlock, demoLhs, demoRhs, SMap.find?, Fin.sum_univ_two]
  norm_num

end Albatross

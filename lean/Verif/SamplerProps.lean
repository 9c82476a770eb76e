import Verif.Sampler
import Verif.RansacProps

/-! # C46, C47: invariants of the ensemble sampler and of its initial states -/

namespace Albatross

/-! ## Specification -/

/-- A walker whose stored log probability is the finite value of the objective at its parameters. -/
def SamplerState.Good (objective : List Dbl → Dbl) (dim : Nat) (s : SamplerState) : Prop :=
  (∃ x : ℝ, s.logProb = .fin x) ∧ s.logProb = objective s.params ∧ s.params.length = dim

/-- The stretch move of one coordinate: the point `z` times as far from `xj` as `xk`, or a small step
when the two coincide. -/
noncomputable def stretchCoord (z : Dbl) (xk xj : Dbl) : Dbl :=
  if xk - xj = .fin 0 then xj + z * .fin (1 / 10 ^ 6) else xj + z * (xk - xj)

/-- The stretch factor of a uniform draw. -/
noncomputable def stretchFactor (a p : ℝ) : Dbl := .fin (((a - 1) * p + 1) ^ 2) / .fin a

/-- The result of moving walker `x` along the line through `xj` with the draws `p` and `r`. -/
noncomputable def stretchResult (objective : List Dbl → Dbl) (a : ℝ) (x xj : SamplerState) (p r : ℝ) :
    SamplerState :=
  let y := List.zipWith (stretchCoord (stretchFactor a p)) x.params xj.params
  if (Dbl.fin r).log < .fin ((x.params.length : ℝ) - 1) * (stretchFactor a p).log + objective y - x.logProb ∧
      (objective y).isFinite = true then ⟨y, objective y, true⟩
  else { x with accepted := false }

/-- Walker `k` of `next` results from walker `k` of `ens` by one stretch move along the line through a
walker `j` of another split; splits with a smaller number have already moved. -/
def StretchMoved (objective : List Dbl → Dbl) (a : ℝ) (nSplits : Nat) (ens next : List SamplerState)
    (k : Nat) : Prop :=
  ∃ (j : Nat) (p r : ℝ) (x xj : SamplerState), j % nSplits ≠ k % nSplits ∧ 0 ≤ p ∧ p < 1 ∧ 0 ≤ r ∧ r < 1 ∧
    ens[k]? = some x ∧ (if j % nSplits < k % nSplits then next else ens)[j]? = some xj ∧
    next[k]? = some (stretchResult objective a x xj p r)

/-! ## One walker -/

theorem vecSet_ok {α : Type} {v w : List α} {i : Nat} {x : α} :
    vecSet v i x = .ok w ↔ i < v.length ∧ w = v.set i x := by
  unfold vecSet
  split
  · simp [*, eq_comm]
  · simp [*]

theorem proposeParams_ok {nDim : Nat} {z : Dbl} {xj params out : List Dbl} (hp : params.length = nDim)
    (hj : xj.length = nDim) :
    proposeParams nDim z xj params = .ok out ↔ out = List.zipWith (stretchCoord z) params xj := by
  have h : ∀ m, m ≤ nDim → proposeParams m z xj params =
      .ok (List.zipWith (stretchCoord z) (params.take m) (xj.take m) ++ params.drop m) := by
    intro m
    induction m with
    | zero => intro _; simp [proposeParams]
    | succ m ih =>
      intro hm
      have h1 := ih (by omega)
      unfold proposeParams at h1 ⊢
      rw [List.range_succ, List.foldlM_append, h1]
      have hl : (List.zipWith (stretchCoord z) (params.take m) (xj.take m)).length = m := by
        simp; omega
      have hg : vecGet (List.zipWith (stretchCoord z) (params.take m) (xj.take m) ++ params.drop m) m =
          .ok (params[m]'(by omega)) := by
        rw [vecGet_ok, List.getElem?_append_right (by omega), hl]
        simp
      simp only [except_ok_bind, List.foldlM_cons, List.foldlM_nil]
      rw [vecGet_lt (show m < xj.length by omega), hg]
      simp only [except_ok_bind]
      have hs : ∀ x : Dbl, vecSet (List.zipWith (stretchCoord z) (params.take m) (xj.take m) ++
          params.drop m) m x = .ok (List.zipWith (stretchCoord z) (params.take m) (xj.take m) ++
            x :: params.drop (m + 1)) := by
        intro x
        rw [vecSet_ok]
        constructor
        · simp; omega
        · rw [List.set_append_right _ _ (by omega), hl, Nat.sub_self,
            List.drop_eq_getElem_cons (show m < params.length by omega)]
          rfl
      rw [hs]
      show Except.ok _ = Except.ok _
      rw [List.take_succ_eq_append_getElem (show m < params.length by omega),
        List.take_succ_eq_append_getElem (show m < xj.length by omega), List.zipWith_append (by simp; omega)]
      congr 1
      simp only [List.zipWith_cons_cons, List.zipWith_nil_left, List.append_assoc, List.cons_append,
        List.nil_append, stretchCoord]
      split <;> rfl
  have := h nDim (le_refl _)
  rw [this]
  rw [List.take_of_length_le (by omega), List.take_of_length_le (by omega), List.drop_of_length_le (by omega),
    List.append_nil]
  simp [eq_comm]

theorem pickFinite_ok {M : Nat} {u : UniformInt} {complement : List Nat} {ens : List SamplerState} :
    ∀ {raw : List Nat} {j : Nat} {rest : List Nat}, pickFinite M u complement ens raw = .ok (j, rest) →
      j ∈ complement ∧ j < ens.length := by
  intro raw
  induction raw with
  | nil => intro j rest h; cases h
  | cons r raw ih =>
    intro j rest h
    simp only [pickFinite, except_bind_eq_ok, vecGet_ok] at h
    obtain ⟨j', hj', s, hs, h⟩ := h
    split at h
    · cases h
      exact ⟨List.mem_of_getElem? hj', (List.getElem?_eq_some_iff.1 hs).1⟩
    · exact ih h

theorem moveWalker_ok {M : Nat} {u : UniformInt} {ur : UniformReal} {objective : List Dbl → Dbl} {a : ℝ}
    {nDim : Nat} {complement : List Nat} {cur next : List SamplerState} {raw rest : List Nat} {k : Nat}
    (hd : ∀ s ∈ cur, s.params.length = nDim)
    (h : moveWalker M u ur objective a nDim complement (cur, raw) k = .ok (next, rest)) :
    ∃ (j : Nat) (p r : ℝ) (x xj : SamplerState), j ∈ complement ∧ 0 ≤ p ∧ p < 1 ∧ 0 ≤ r ∧ r < 1 ∧
      k < cur.length ∧ cur[k]? = some x ∧ cur[j]? = some xj ∧
      next = cur.set k (stretchResult objective a x xj p r) := by
  simp only [moveWalker, except_bind_eq_ok, vecGet_ok] at h
  obtain ⟨x, hx, ⟨j, raw1⟩, hj, ⟨r1, raw2⟩, -, xj, hxj, y, hy, ⟨r2, raw3⟩, -, h⟩ := h
  have hxl := hd x (List.mem_of_getElem? hx)
  have hxjl := hd xj (List.mem_of_getElem? hxj)
  rw [proposeParams_ok hxl hxjl] at hy
  refine ⟨j, ur.draw r1, ur.draw r2, x, xj, (pickFinite_ok hj).1, ur.ge _, ur.lt _, ur.ge _, ur.lt _,
    (List.getElem?_eq_some_iff.1 hx).1, hx, hxj, ?_⟩
  unfold stretchResult
  simp only [hxl]
  change y = List.zipWith (stretchCoord (stretchFactor a (ur.draw r1))) x.params xj.params at hy
  rw [← hy]
  split at h
  · rename_i hc
    rw [except_bind_eq_ok] at h
    obtain ⟨w, hw, h⟩ := h
    rw [vecSet_ok] at hw
    cases h
    exact hw.2.trans (congrArg _ (if_pos hc).symm)
  · rename_i hc
    rw [except_bind_eq_ok] at h
    obtain ⟨w, hw, h⟩ := h
    rw [vecSet_ok] at hw
    cases h
    exact hw.2.trans (congrArg _ (if_neg hc).symm)

/-! ## One split, and all of them -/

theorem stretchResult_good {objective : List Dbl → Dbl} {a : ℝ} {x xj : SamplerState} {p r : ℝ} {dim : Nat}
    (hx : x.Good objective dim) (hj : xj.params.length = dim) :
    (stretchResult objective a x xj p r).Good objective dim := by
  unfold stretchResult
  simp only
  split
  · rename_i h
    refine ⟨?_, rfl, ?_⟩
    · cases ho : objective (List.zipWith (stretchCoord (stretchFactor a p)) x.params xj.params) with
      | fin y => exact ⟨y, rfl⟩
      | pinf => rw [ho] at h; simp [Dbl.isFinite] at h
      | ninf => rw [ho] at h; simp [Dbl.isFinite] at h
      | nan => rw [ho] at h; simp [Dbl.isFinite] at h
    · simp [hx.2.2, hj]
  · exact ⟨hx.1, hx.2.1, hx.2.2⟩

/-- State of the sampler after the walkers in `done` have moved. -/
structure StepInv (objective : List Dbl → Dbl) (a : ℝ) (nSplits dim : Nat) (ens cur : List SamplerState)
    (done : Nat → Prop) : Prop where
  len : cur.length = ens.length
  good : ∀ s ∈ cur, s.Good objective dim
  fresh : ∀ i, ¬ done i → cur[i]? = ens[i]?
  moved : ∀ i, done i → StretchMoved objective a nSplits ens cur i

theorem stepInv_move {M : Nat} {u : UniformInt} {ur : UniformReal} {objective : List Dbl → Dbl} {a : ℝ}
    {nSplits dim : Nat} {ens cur next : List SamplerState} {done : Nat → Prop} {raw rest : List Nat}
    {split : List Nat} {k q : Nat} (h : StepInv objective a nSplits dim ens cur done)
    (hsplit : ∀ i, i ∈ split ↔ i < ens.length ∧ i % nSplits = q) (hk : k ∈ split) (hnd : ¬ done k)
    (hle : ∀ i, done i → i % nSplits ≤ q)
    (hm : moveWalker M u ur objective a dim (indicesComplement split ens.length) (cur, raw) k =
      .ok (next, rest)) :
    StepInv objective a nSplits dim ens next (fun i => done i ∨ i = k) := by
  obtain ⟨j, p, r, x, xj, hj, hp0, hp1, hr0, hr1, hkl, hx, hxj, rfl⟩ :=
    moveWalker_ok (fun s hs => (h.good s hs).2.2) hm
  obtain ⟨hjl, hjs⟩ := ((C06_indices_complement split ens.length).2.1 j).1 hj
  have hkq : k % nSplits = q := ((hsplit k).1 hk).2
  have hjq : j % nSplits ≠ q := fun e => hjs ((hsplit j).2 ⟨hjl, e⟩)
  have hjk : j ≠ k := fun e => hjq (e ▸ hkq)
  refine ⟨by simpa using h.len, ?_, ?_, ?_⟩
  · intro s hs
    rcases List.mem_or_eq_of_mem_set hs with hs | rfl
    · exact h.good s hs
    · exact stretchResult_good (h.good x (List.mem_of_getElem? hx))
        (h.good xj (List.mem_of_getElem? hxj)).2.2
  · intro i hi
    rw [not_or] at hi
    rw [List.getElem?_set_ne (Ne.symm hi.2)]
    exact h.fresh i hi.1
  · rintro i (hi | rfl)
    · have hik : i ≠ k := fun e => hnd (e ▸ hi)
      obtain ⟨j', p', r', x', xj', h1, h2, h3, h4, h5, h6, h7, h8⟩ := h.moved i hi
      refine ⟨j', p', r', x', xj', h1, h2, h3, h4, h5, h6, ?_, ?_⟩
      · split at h7
        · rename_i hlt
          rw [if_pos hlt]
          have : k ≠ j' := by
            rintro rfl
            have := hle i hi
            omega
          rw [List.getElem?_set_ne this]; exact h7
        · rename_i hlt
          rw [if_neg hlt]; exact h7
      · rw [List.getElem?_set_ne (Ne.symm hik)]; exact h8
    · refine ⟨j, p, r, x, xj, by omega, hp0, hp1, hr0, hr1, ?_, ?_, ?_⟩
      · rw [← h.fresh i hnd]; exact hx
      · split
        · rw [List.getElem?_set_ne (Ne.symm hjk)]; exact hxj
        · rename_i hlt
          have hnj : ¬ done j := fun hd => by
            have := hle j hd
            omega
          rw [← h.fresh j hnj]; exact hxj
      · rw [List.getElem?_set_self hkl]

theorem stepInv_split {M : Nat} {u : UniformInt} {ur : UniformReal} {objective : List Dbl → Dbl} {a : ℝ}
    {nSplits dim : Nat} {ens : List SamplerState} {split : List Nat} {q : Nat}
    (hsplit : ∀ i, i ∈ split ↔ i < ens.length ∧ i % nSplits = q) :
    ∀ (ks : List Nat) (cur next : List SamplerState) (done : Nat → Prop) (raw rest : List Nat),
      StepInv objective a nSplits dim ens cur done → (∀ k ∈ ks, k ∈ split) → ks.Nodup →
      (∀ k ∈ ks, ¬ done k) →
      (∀ i, done i → i % nSplits ≤ q) →
      ks.foldlM (moveWalker M u ur objective a dim (indicesComplement split ens.length)) (cur, raw) =
        .ok (next, rest) →
      StepInv objective a nSplits dim ens next (fun i => done i ∨ i ∈ ks) := by
  intro ks
  induction ks with
  | nil =>
    intro cur next done raw rest h _ _ _ _ hf
    cases hf
    simpa using h
  | cons k t ih =>
    intro cur next done raw rest h hs hn hd h2 hf
    rw [List.foldlM_cons, except_bind_eq_ok] at hf
    obtain ⟨⟨cur', raw'⟩, hm, hf⟩ := hf
    have hk := stepInv_move h hsplit (hs k (by simp)) (hd k (by simp)) h2 hm
    have hkq := ((hsplit k).1 (hs k (by simp))).2
    have := ih cur' next _ raw' rest hk (fun i hi => hs i (by simp [hi])) (List.nodup_cons.1 hn).2
      (fun i hi => by
        rintro (hdi | rfl)
        · exact hd i (by simp [hi]) hdi
        · exact (List.nodup_cons.1 hn).1 hi)
      (fun i hi => by
        rcases hi with hi | rfl
        · exact h2 i hi
        · omega) hf
    have e : (fun i => done i ∨ i ∈ k :: t) = fun i => (done i ∨ i = k) ∨ i ∈ t := by
      funext i; simp only [List.mem_cons]; rw [or_assoc]
    rw [e]; exact this

theorem stepInv_all {M : Nat} {u : UniformInt} {ur : UniformReal} {objective : List Dbl → Dbl} {a : ℝ}
    {nSplits dim : Nat} {ens : List SamplerState} :
    ∀ (splits : List (List Nat)) (q : Nat) (cur next : List SamplerState) (raw rest : List Nat),
      StepInv objective a nSplits dim ens cur (fun i => i < ens.length ∧ i % nSplits < q) →
      (∀ (t : Nat) split, splits[t]? = some split → split.Nodup ∧
        ∀ i, i ∈ split ↔ i < ens.length ∧ i % nSplits = q + t) →
      splits.foldlM (fun next split => split.foldlM (moveWalker M u ur objective a dim
        (indicesComplement split ens.length)) next) (cur, raw) = .ok (next, rest) →
      StepInv objective a nSplits dim ens next
        (fun i => i < ens.length ∧ i % nSplits < q + splits.length) := by
  intro splits
  induction splits with
  | nil => intro q cur next raw rest h _ hf; cases hf; simpa using h
  | cons split t ih =>
    intro q cur next raw rest h hs hf
    rw [List.foldlM_cons, except_bind_eq_ok] at hf
    obtain ⟨⟨cur', raw'⟩, hm, hf⟩ := hf
    obtain ⟨hn, hsp⟩ := hs 0 split rfl
    rw [Nat.add_zero] at hsp
    have h1 := stepInv_split hsp split cur cur' _ raw raw' h (fun _ h => h) hn
      (fun k hk => by have := (hsp k).1 hk; omega)
      (fun i hi => by omega) hm
    have e1 : (fun i => (i < ens.length ∧ i % nSplits < q) ∨ i ∈ split) =
        fun i => i < ens.length ∧ i % nSplits < q + 1 := by
      funext i
      rw [hsp]
      apply propext
      omega
    rw [e1] at h1
    have := ih (q + 1) cur' next raw' rest h1 (fun m sp hm => by
      have := hs (m + 1) sp (by simpa using hm)
      rw [show q + 1 + m = q + (m + 1) by omega]; exact this) hf
    rw [List.length_cons, show q + (t.length + 1) = q + 1 + t.length by omega]
    exact this

theorem splitIndices_ok {n k : Nat} (hk : 0 < k) : ∃ splits, splitIndices n k = .ok splits ∧
    splits.length = min n k ∧ ∀ (t : Nat) split, splits[t]? = some split →
      split.Nodup ∧ ∀ i, i ∈ split ↔ i < n ∧ i % k = t := by
  obtain ⟨m, hm, hw, hkeys, hf⟩ := (C03_k_fold k (List.range n)).1 hk
  rw [List.length_range] at hkeys
  refine ⟨m.values, ?_, ?_, ?_⟩
  · unfold splitIndices; rw [hm]; rfl
  · have := congrArg List.length hkeys
    simpa [SMap.keys, SMap.values] using this
  · intro t split ht
    simp only [SMap.values, List.getElem?_map, Option.map_eq_some_iff] at ht
    obtain ⟨⟨key, is⟩, ht, rfl⟩ := ht
    have hkey : key = t := by
      have h1 : m.keys[t]? = some key := by simp [SMap.keys, ht]
      rw [hkeys] at h1
      obtain ⟨h2, h3⟩ := List.getElem?_eq_some_iff.1 h1
      simpa using h3.symm
    subst hkey
    obtain ⟨h1, h2, -⟩ := hf key is (SMap.find?_of_mem hw (List.mem_of_getElem? ht))
    rw [List.length_range] at h2
    exact ⟨h1.imp fun h => ne_of_lt h, h2⟩

/-- C46, one step. If the walkers are good and the step returns, then there are as many walkers as
before, all good; every walker results from one stretch move along the line through a walker of another
split; and a walker that is not marked accepted has its previous parameters and log probability. -/
theorem C46_step (M : Nat) (b : Build) (u : UniformInt) (ur : UniformReal) (objective : List Dbl → Dbl)
    (nSplits : Nat) (a : ℝ) (dim : Nat) (ens : List SamplerState) (raw : List Nat)
    (hg : ∀ s ∈ ens, s.Good objective dim) (next : List SamplerState) (rest : List Nat)
    (h : stretchMoveStep M b u ur objective nSplits a ens raw = .ok (next, rest)) :
    next.length = ens.length ∧ (∀ s ∈ next, s.Good objective dim) ∧
    (∀ k, k < ens.length → StretchMoved objective a nSplits ens next k) ∧
    ∀ (k : Nat) (s t : SamplerState), ens[k]? = some s → next[k]? = some t → t.accepted = false →
      t.params = s.params ∧ t.logProb = s.logProb := by
  simp only [stretchMoveStep, except_bind_eq_ok, vecGet_ok] at h
  obtain ⟨first, hfirst, -, -, splits, hsp, h⟩ := h
  have hd := (hg first (List.mem_of_getElem? hfirst)).2.2
  rw [hd] at h
  have hpos : 0 < nSplits := by
    rcases Nat.eq_zero_or_pos nSplits with rfl | h0
    · exfalso
      unfold splitIndices at hsp
      have hne : List.range ens.length ≠ [] := by
        cases ens with
        | nil => simp at hfirst
        | cons x t => simp
      rw [(C03_k_fold 0 (List.range ens.length)).2 rfl hne] at hsp
      cases hsp
    · exact h0
  obtain ⟨splits', hsp', hlen, hall⟩ := splitIndices_ok (n := ens.length) hpos
  rw [hsp] at hsp'
  cases hsp'
  have hinv := stepInv_all splits 0 ens next raw rest
    ⟨rfl, hg, fun _ _ => rfl, fun i hi => by omega⟩ (fun t sp ht => by
      rw [Nat.zero_add]; exact hall t sp ht) h
  have hmoved : ∀ k, k < ens.length → StretchMoved objective a nSplits ens next k := by
    intro k hk
    refine hinv.moved k ⟨hk, ?_⟩
    rw [hlen, Nat.zero_add]
    have h1 := Nat.mod_lt k hpos
    have h2 := Nat.mod_le k nSplits
    omega
  refine ⟨hinv.len, hinv.good, hmoved, ?_⟩
  intro k s t hs ht hacc
  obtain ⟨j, p, r, x, xj, -, -, -, -, -, hx, -, hn⟩ := hmoved k (List.getElem?_eq_some_iff.1 hs).1
  rw [hx] at hs
  cases hs
  rw [hn] at ht
  cases ht
  unfold stretchResult at hacc ⊢
  simp only at hacc ⊢
  split at hacc
  · cases hacc
  · rename_i hc
    rw [if_neg hc]
    exact ⟨rfl, rfl⟩

/-! ## The step returns -/

theorem moveWalker_returns {M : Nat} {u : UniformInt} {ur : UniformReal} {objective : List Dbl → Dbl}
    {a : ℝ} {dim : Nat} {complement : List Nat} {cur : List SamplerState} {raw : List Nat} {k : Nat}
    (hg : ∀ s ∈ cur, s.Good objective dim) (hk : k < cur.length)
    (hc : complement ≠ []) (hcl : complement.length < M) (hci : ∀ j ∈ complement, j < cur.length)
    (hraw : 3 ≤ raw.length) :
    ∃ next, moveWalker M u ur objective a dim complement (cur, raw) k = .ok (next, raw.drop 3) := by
  obtain ⟨r0, r1, r2, rest, rfl⟩ : ∃ r0 r1 r2 rest, raw = r0 :: r1 :: r2 :: rest := by
    match raw, hraw with
    | r0 :: r1 :: r2 :: rest, _ => exact ⟨r0, r1, r2, rest, rfl⟩
  have hpos := List.length_pos_iff.2 hc
  have hsz : sizeSub M complement.length 1 = complement.length - 1 := by
    unfold sizeSub
    rw [show complement.length + M - 1 = (complement.length - 1) + M by omega, Nat.add_mod_right,
      Nat.mod_eq_of_lt (by omega)]
  have hlt : u.draw 0 (complement.length - 1) r0 < complement.length := by
    have := u.le 0 (complement.length - 1) r0 (by omega)
    omega
  have hj := hci _ (List.getElem_mem hlt)
  obtain ⟨x, hx⟩ := (hg _ (List.getElem_mem hj)).1
  have hpick : pickFinite M u complement cur (r0 :: r1 :: r2 :: rest) =
      .ok (complement[u.draw 0 (complement.length - 1) r0], r1 :: r2 :: rest) := by
    rw [pickFinite, hsz, vecGet_lt hlt]
    simp only [except_ok_bind]
    rw [vecGet_lt hj]
    simp only [except_ok_bind]
    rw [hx]
    rfl
  unfold moveWalker
  simp only
  rw [vecGet_lt hk, hpick]
  simp only [except_ok_bind, nextRaw]
  rw [vecGet_lt hj]
  simp only [except_ok_bind]
  rw [(proposeParams_ok (hg _ (List.getElem_mem hk)).2.2 (hg _ (List.getElem_mem hj)).2.2).2 rfl]
  simp only [except_ok_bind]
  split
  · exact ⟨_, by rw [vecSet_ok.2 ⟨hk, rfl⟩]; rfl⟩
  · exact ⟨_, by rw [vecSet_ok.2 ⟨hk, rfl⟩]; rfl⟩

theorem moveWalker_keeps {M : Nat} {u : UniformInt} {ur : UniformReal} {objective : List Dbl → Dbl} {a : ℝ}
    {dim : Nat} {complement : List Nat} {cur next : List SamplerState} {raw rest : List Nat} {k : Nat}
    (hg : ∀ s ∈ cur, s.Good objective dim)
    (h : moveWalker M u ur objective a dim complement (cur, raw) k = .ok (next, rest)) :
    next.length = cur.length ∧ ∀ s ∈ next, s.Good objective dim := by
  obtain ⟨j, p, r, x, xj, -, -, -, -, -, -, hx, hxj, rfl⟩ := moveWalker_ok (fun s hs => (hg s hs).2.2) h
  refine ⟨by simp, fun s hs => ?_⟩
  rcases List.mem_or_eq_of_mem_set hs with hs | rfl
  · exact hg s hs
  · exact stretchResult_good (hg x (List.mem_of_getElem? hx)) (hg xj (List.mem_of_getElem? hxj)).2.2

theorem split_returns {M : Nat} {u : UniformInt} {ur : UniformReal} {objective : List Dbl → Dbl}
    {a : ℝ} {dim n : Nat} {complement : List Nat}
    (hc : complement ≠ []) (hcl : complement.length < M) (hci : ∀ j ∈ complement, j < n) :
    ∀ (ks : List Nat) (cur : List SamplerState) (raw : List Nat), cur.length = n →
      (∀ s ∈ cur, s.Good objective dim) → (∀ k ∈ ks, k < n) → 3 * ks.length ≤ raw.length →
      ∃ next, ks.foldlM (moveWalker M u ur objective a dim complement) (cur, raw) =
        .ok (next, raw.drop (3 * ks.length)) ∧ next.length = n ∧ ∀ s ∈ next, s.Good objective dim := by
  intro ks
  induction ks with
  | nil => intro cur raw hl hg _ _; exact ⟨cur, rfl, hl, hg⟩
  | cons k t ih =>
    intro cur raw hl hg hk hraw
    rw [List.length_cons] at hraw
    subst hl
    obtain ⟨next, hn⟩ := moveWalker_returns (u := u) (ur := ur) (a := a) hg (hk k (by simp)) hc hcl hci
      (show 3 ≤ raw.length by omega)
    obtain ⟨h1, h2⟩ := moveWalker_keeps hg hn
    obtain ⟨next', h3, h4, h5⟩ := ih next (raw.drop 3) h1 h2 (fun i hi => hk i (by simp [hi]))
      (by rw [List.length_drop]; omega)
    refine ⟨next', ?_, h4, h5⟩
    rw [List.foldlM_cons, hn, except_ok_bind, h3, List.drop_drop, List.length_cons]
    congr 3
    omega

/-- C46, one step. With at least two walkers and two splits the step returns, in either build, and
draws three numbers per walker. -/
theorem C46_step_returns (M : Nat) (b : Build) (u : UniformInt) (ur : UniformReal)
    (objective : List Dbl → Dbl) (nSplits : Nat) (a : ℝ) (dim : Nat) (ens : List SamplerState)
    (raw : List Nat) (hg : ∀ s ∈ ens, s.Good objective dim) (hn : 2 ≤ ens.length) (hs : 2 ≤ nSplits)
    (hM : ens.length < M) (hraw : 3 * ens.length ≤ raw.length) :
    ∃ next, stretchMoveStep M b u ur objective nSplits a ens raw =
      .ok (next, raw.drop (3 * ens.length)) := by
  obtain ⟨splits, hsp, hlen, hall⟩ := splitIndices_ok (n := ens.length) (k := nSplits) (by omega)
  have hval : assertValidStates b ens = .ok () := by
    unfold assertValidStates
    have : ∀ l : List SamplerState, (∀ s ∈ l, s.Good objective dim) →
        l.forM (fun s => albatrossAssert b s.logProb.isFinite) = .ok () := by
      intro l
      induction l with
      | nil => intro _; rfl
      | cons x t ih =>
        intro h
        obtain ⟨y, hy⟩ := (h x (by simp)).1
        show (albatrossAssert b x.logProb.isFinite >>= fun _ => t.forM _) = _
        rw [hy]
        show (albatrossAssert b true >>= fun _ => t.forM _) = _
        rw [albatrossAssert_true, except_ok_bind]
        exact ih fun s hs => h s (by simp [hs])
    exact this ens hg
  -- the splits are nonempty proper subsets of the indices
  have hsplit : ∀ split ∈ splits, split.Nodup ∧ (∀ i ∈ split, i < ens.length) ∧
      indicesComplement split ens.length ≠ [] := by
    intro split hmem
    obtain ⟨t, ht⟩ := List.mem_iff_getElem?.1 hmem
    obtain ⟨h1, h2⟩ := hall t split ht
    refine ⟨h1, fun i hi => ((h2 i).1 hi).1, ?_⟩
    intro e
    have hc := (C06_indices_complement split ens.length).2.1
    rw [e] at hc
    have h0 := (hc 0).not.1 (by simp)
    have h1' := (hc 1).not.1 (by simp)
    have a0 : 0 ∈ split := by by_contra hx; exact h0 ⟨by omega, hx⟩
    have a1 : 1 ∈ split := by by_contra hx; exact h1' ⟨by omega, hx⟩
    have b0 := ((h2 0).1 a0).2
    have b1 := ((h2 1).1 a1).2
    rw [Nat.zero_mod] at b0
    rw [Nat.mod_eq_of_lt (by omega)] at b1
    omega
  have htotal : (splits.map List.length).sum = ens.length := by
    have hp : (splits.flatten).Perm (List.range ens.length) := by
      rw [List.perm_ext_iff_of_nodup _ List.nodup_range]
      · intro i
        rw [List.mem_flatten, List.mem_range]
        constructor
        · rintro ⟨sp, hsp, hi⟩; exact (hsplit sp hsp).2.1 i hi
        · intro hi
          have ht : i % nSplits < splits.length := by
            rw [hlen]
            have h1 := Nat.mod_lt i (show 0 < nSplits by omega)
            have h2 := Nat.mod_le i nSplits
            omega
          exact ⟨splits[i % nSplits], List.getElem_mem _,
            ((hall (i % nSplits) _ (List.getElem?_eq_getElem ht)).2 i).2 ⟨hi, rfl⟩⟩
      · rw [List.nodup_flatten]
        refine ⟨fun l hl => (hsplit l hl).1, ?_⟩
        rw [List.pairwise_iff_getElem]
        intro i j hi hj hij x hx hy
        have h1 := ((hall i _ (List.getElem?_eq_getElem hi)).2 x).1 hx
        have h2 := ((hall j _ (List.getElem?_eq_getElem hj)).2 x).1 hy
        omega
    have := hp.length_eq
    rwa [List.length_flatten, List.length_range] at this
  have hloop : ∀ (l : List (List Nat)) (cur : List SamplerState) (raw : List Nat), (∀ sp ∈ l, sp ∈ splits) →
      cur.length = ens.length → (∀ s ∈ cur, s.Good objective dim) →
      3 * (l.map List.length).sum ≤ raw.length →
      ∃ next, l.foldlM (fun next split => split.foldlM (moveWalker M u ur objective a dim
        (indicesComplement split ens.length)) next) (cur, raw) =
          .ok (next, raw.drop (3 * (l.map List.length).sum)) := by
    intro l
    induction l with
    | nil => intro cur raw _ _ _ _; exact ⟨cur, rfl⟩
    | cons sp t ih =>
      intro cur raw hsub hl hgc hr
      rw [List.map_cons, List.sum_cons] at hr
      obtain ⟨h1, h2, h3⟩ := hsplit sp (hsub sp (by simp))
      have hci : ∀ j ∈ indicesComplement sp ens.length, j < ens.length := fun j hj =>
        (((C06_indices_complement sp ens.length).2.1 j).1 hj).1
      have hcl : (indicesComplement sp ens.length).length ≤ ens.length := by
        have hnd : (indicesComplement sp ens.length).Nodup :=
          (C06_indices_complement sp ens.length).1.imp fun h => ne_of_lt h
        have := (hnd.subperm (l₂ := List.range ens.length)
          fun j hj => List.mem_range.2 (hci j hj)).length_le
        simpa using this
      obtain ⟨next, h4, h5, h6⟩ := split_returns (M := M) (u := u) (ur := ur) (a := a) h3 (by omega) hci sp cur raw
        hl hgc h2 (by omega)
      obtain ⟨next', h7⟩ := ih next (raw.drop (3 * sp.length)) (fun x hx => hsub x (by simp [hx])) h5 h6
        (by rw [List.length_drop]; omega)
      refine ⟨next', ?_⟩
      rw [List.foldlM_cons, h4, except_ok_bind, h7, List.drop_drop, List.map_cons, List.sum_cons]
      congr 3
      omega
  obtain ⟨next, hnext⟩ := hloop splits ens raw (fun _ h => h) rfl hg (by rw [htotal]; exact hraw)
  refine ⟨next, ?_⟩
  unfold stretchMoveStep
  rw [vecGet_lt (show 0 < ens.length by omega), except_ok_bind, hval, except_ok_bind, hsp, except_ok_bind,
    (hg _ (List.getElem_mem _)).2.2, hnext, htotal]

/-! ## The initial states (C47) -/

/-- A parameter vector mixed coordinate by coordinate from two others, with weights in `[0, 1)`. -/
def IsMixture (x y out : List Dbl) : Prop :=
  ∃ w : List ℝ, w.length = x.length ∧ (∀ a ∈ w, 0 ≤ a ∧ a < 1) ∧
    out = List.zipWith (fun a (q : Dbl × Dbl) => q.1 + Dbl.fin a * (q.2 - q.1)) w (x.zip y)

theorem mixParams_ok {ur : UniformReal} : ∀ (tail other pre : List Dbl) (raw : List Nat)
    {out : List Dbl} {rest : List Nat},
    mixParams ur other tail.length pre.length (pre ++ tail) raw = .ok (out, rest) →
      pre.length + tail.length ≤ max pre.length other.length ∧
      ∃ m, out = pre ++ m ∧ IsMixture tail (other.drop pre.length) m := by
  intro tail
  induction tail with
  | nil =>
    intro other pre raw out rest h
    cases h
    exact ⟨by simp, [], by simp, [], rfl, by simp, rfl⟩
  | cons p0 t ih =>
    intro other pre raw out rest h
    cases raw with
    | nil => cases h
    | cons r raw =>
      simp only [List.length_cons, mixParams, nextRaw, except_ok_bind, except_bind_eq_ok, vecSet_ok,
        vecGet_ok] at h
      obtain ⟨o, ho, q, hq, p', ⟨hlt, rfl⟩, h⟩ := h
      have hq' : q = p0 := by simpa [eq_comm] using hq
      subst hq'
      have e : (pre ++ q :: t).set pre.length (q + Dbl.fin (ur.draw r) * (o - q)) =
          (pre ++ [q + Dbl.fin (ur.draw r) * (o - q)]) ++ t := by
        rw [List.set_append_right _ _ (le_refl _)]
        simp
      rw [e] at h
      have hl : (pre ++ [q + Dbl.fin (ur.draw r) * (o - q)]).length = pre.length + 1 := by simp
      rw [← hl] at h
      obtain ⟨h1, m, hm, w, hw, hwb, hmw⟩ := ih other _ raw h
      obtain ⟨hol, hoe⟩ := List.getElem?_eq_some_iff.1 ho
      rw [hl] at h1 hmw
      refine ⟨by rw [List.length_cons]; omega, (q + Dbl.fin (ur.draw r) * (o - q)) :: m, by rw [hm]; simp,
        ur.draw r :: w, by simp [hw], ?_, ?_⟩
      · intro a ha
        rcases List.mem_cons.1 ha with rfl | ha
        · exact ⟨ur.ge _, ur.lt _⟩
        · exact hwb a ha
      · rw [List.drop_eq_getElem_cons hol, hoe, List.zip_cons_cons, List.zipWith_cons_cons, ← hmw]

theorem mapM_vecGet_mem {α : Type} {xs : List α} : ∀ {is : List Nat} {o : List α},
    is.mapM (fun i => vecGet xs i) = .ok o → ∀ x ∈ o, x ∈ xs := by
  intro is
  induction is with
  | nil => intro o h x hx; cases h; cases hx
  | cons i t ih =>
    intro o h x hx
    rw [List.mapM_cons, except_bind_eq_ok] at h
    obtain ⟨y, hy, h⟩ := h
    rw [except_bind_eq_ok] at h
    obtain ⟨o', ho', h⟩ := h
    cases h
    rcases List.mem_cons.1 hx with rfl | hx
    · exact List.mem_of_getElem? (vecGet_ok.1 hy)
    · exact ih ho' x hx

theorem attemptState_ok {M : Nat} {b : Build} {u : UniformInt} {ur : UniformReal}
    {objective : List Dbl → Dbl} {output : List SamplerState} {raw rest : List Nat} {s : SamplerState}
    (h : attemptState M b u ur objective output raw = .ok (s, rest)) :
    s.logProb = objective s.params ∧ ∃ x ∈ output, ∃ y ∈ output,
      x.params.length ≤ y.params.length ∧ IsMixture x.params y.params s.params := by
  simp only [attemptState, randomWithoutReplacementRest, except_bind_eq_ok, except_pure] at h
  obtain ⟨⟨pair, raw1⟩, ⟨⟨is, raw0⟩, h1, o1, ho1, h2⟩, x, hx, y, hy, ⟨ps, raw2⟩, h3, h4⟩ := h
  cases h2
  cases h4
  have hx' := mapM_vecGet_mem ho1 x (List.mem_of_getElem? (vecGet_ok.1 hx))
  have hy' := mapM_vecGet_mem ho1 y (List.mem_of_getElem? (vecGet_ok.1 hy))
  obtain ⟨hl, m, hm, hmix⟩ := mixParams_ok x.params y.params [] _ h3
  simp only [List.nil_append, List.length_nil, List.drop_zero] at hm hmix hl
  subst hm
  exact ⟨rfl, x, hx', y, hy', by omega, hmix⟩

theorem IsMixture.length {x y m : List Dbl} (h : IsMixture x y m) (hl : x.length ≤ y.length) :
    m.length = x.length := by
  obtain ⟨w, hw, -, rfl⟩ := h
  simp [hw]; omega

theorem Dbl.isFinite_iff {a : Dbl} : a.isFinite = true ↔ ∃ x, a = .fin x := by
  cases a <;> simp [Dbl.isFinite]

theorem fillStates_ok {M : Nat} {b : Build} {u : UniformInt} {ur : UniformReal}
    {objective : List Dbl → Dbl} {target : Nat} :
    ∀ (n : Nat) (output : List SamplerState) (raw : List Nat), raw.length + (target - output.length) = n →
      output.length ≤ target →
      ∀ out rest, fillStates M b u ur objective target output raw = .ok (out, rest) →
        ∃ added, out = output ++ added ∧ out.length = target ∧
          ∀ (i : Nat) (s : SamplerState), added[i]? = some s →
            (∃ x, s.logProb = .fin x) ∧ s.logProb = objective s.params ∧
            ∃ x ∈ output ++ added.take i, ∃ y ∈ output ++ added.take i,
              x.params.length ≤ y.params.length ∧ IsMixture x.params y.params s.params := by
  intro n
  induction n using Nat.strong_induction_on with
  | _ n ih =>
  intro output raw hn hle out rest h
  rw [fillStates] at h
  by_cases hlt : output.length < target
  · rw [if_pos hlt] at h
    split at h
    · cases h
    · rename_i attempt rest' ha
      have hrest := attemptState_rest ha
      obtain ⟨hlp, x, hx, y, hy, hmix⟩ := attemptState_ok ha
      split at h
      · rename_i hf
        obtain ⟨added, rfl, h2, h3⟩ := ih _ (by
          rw [List.length_append, List.length_singleton]; omega) (output ++ [attempt]) rest' rfl
          (by rw [List.length_append, List.length_singleton]; omega) out rest h
        refine ⟨attempt :: added, by simp, h2, ?_⟩
        intro i s hs
        cases i with
        | zero =>
          cases hs
          exact ⟨Dbl.isFinite_iff.1 hf, hlp, x, by simp [hx], y, by simp [hy], hmix⟩
        | succ i => simpa using h3 i s (by simpa using hs)
      · split at h
        · exact ih _ (by omega) output rest' rfl hle out rest h
        · cases h
  · rw [if_neg hlt] at h
    cases h
    exact ⟨[], by simp, by omega, by simp⟩

/-- C47. If `ensure_finite_initial_state` returns, there are as many states as before; the first are
the given states with finite log probability and parameters, in order; the others were mixed from two
earlier ones and hold the objective at their parameters; all log probabilities are finite. -/
theorem C47_ensure_finite (M : Nat) (b : Build) (u : UniformInt) (ur : UniformReal)
    (objective : List Dbl → Dbl) (ensembles : List SamplerState) (raw : List Nat)
    (out : List SamplerState) (rest : List Nat)
    (h : ensureFiniteInitialState M b u ur objective ensembles raw = .ok (out, rest)) :
    out.length = ensembles.length ∧ (∀ s ∈ out, ∃ x : ℝ, s.logProb = .fin x) ∧
    ∃ kept added, out = kept ++ added ∧
      kept = (ensembles.filter fun s => s.logProb.isFinite && s.params.all Dbl.isFinite) ∧
      ∀ (i : Nat) (s : SamplerState), added[i]? = some s → s.logProb = objective s.params ∧
        ∃ x ∈ kept ++ added.take i, ∃ y ∈ kept ++ added.take i,
          x.params.length ≤ y.params.length ∧ IsMixture x.params y.params s.params := by
  simp only [ensureFiniteInitialState, except_bind_eq_ok] at h
  obtain ⟨-, -, h⟩ := h
  obtain ⟨added, h1, h2, h3⟩ := fillStates_ok _ _ raw rfl (List.length_filter_le _ _) out rest h
  refine ⟨h2, ?_, _, added, h1, rfl, fun i s hs => (h3 i s hs).2⟩
  intro s hs
  rw [h1] at hs
  rcases List.mem_append.1 hs with hs | hs
  · have := (List.mem_filter.1 hs).2
    rw [Bool.and_eq_true] at this
    exact Dbl.isFinite_iff.1 this.1
  · obtain ⟨i, hi⟩ := List.mem_iff_getElem?.1 hs
    exact (h3 i s hi).1

/-- C47. States that are all finite are returned as they are, without drawing anything; a debug build
stops when fewer than three states are finite. -/
theorem C47_ensure_finite_checks (M : Nat) (b : Build) (u : UniformInt) (ur : UniformReal)
    (objective : List Dbl → Dbl) (ensembles : List SamplerState) (raw : List Nat) :
    (2 < ensembles.length → (∀ s ∈ ensembles, (∃ x, s.logProb = .fin x) ∧ ∀ p ∈ s.params, ∃ x, p = .fin x) →
      ensureFiniteInitialState M b u ur objective ensembles raw = .ok (ensembles, raw)) ∧
    ((ensembles.filter fun s => s.logProb.isFinite && s.params.all Dbl.isFinite).length ≤ 2 →
      ensureFiniteInitialState M .debug u ur objective ensembles raw = .error .assertFail) := by
  constructor
  · intro hl hs
    have hf : (ensembles.filter fun s => s.logProb.isFinite && s.params.all Dbl.isFinite) = ensembles := by
      rw [List.filter_eq_self]
      intro s h
      rw [Bool.and_eq_true, List.all_eq_true]
      exact ⟨Dbl.isFinite_iff.2 (hs s h).1, fun p hp => Dbl.isFinite_iff.2 ((hs s h).2 p hp)⟩
    simp only [ensureFiniteInitialState, hf]
    rw [show decide (ensembles.length > 2) = true by simpa using hl, albatrossAssert_true, except_ok_bind,
      fillStates, if_neg (by omega)]
  · intro hl
    simp only [ensureFiniteInitialState]
    rw [show decide ((ensembles.filter fun s => s.logProb.isFinite && s.params.all Dbl.isFinite).length > 2) =
      false by simpa using hl]
    rfl

theorem jitterVector_ok {jitter : Nat → Dbl} : ∀ (ds : List Dbl) (raw : List Nat) {v : List Dbl}
    {rest : List Nat}, jitterVector jitter ds raw = .ok (v, rest) →
      ∃ js : List Nat, js.length = ds.length ∧ raw = js ++ rest ∧
        v = List.zipWith (fun d j => d + jitter j) ds js := by
  intro ds
  induction ds with
  | nil => intro raw v rest h; cases h; exact ⟨[], rfl, rfl, rfl⟩
  | cons d ds ih =>
    intro raw v rest h
    cases raw with
    | nil => cases h
    | cons r raw =>
      simp only [jitterVector, nextRaw, except_ok_bind, except_bind_eq_ok] at h
      obtain ⟨⟨v', rest'⟩, h1, h2⟩ := h
      cases h2
      obtain ⟨js, hl, rfl, rfl⟩ := ih raw h1
      exact ⟨r :: js, by simp [hl], by simp, rfl⟩

theorem jitterVector_returns {jitter : Nat → Dbl} : ∀ (ds : List Dbl) (raw : List Nat),
    ds.length ≤ raw.length → ∃ v, jitterVector jitter ds raw = .ok (v, raw.drop ds.length) := by
  intro ds
  induction ds with
  | nil => intro raw _; exact ⟨[], rfl⟩
  | cons d ds ih =>
    intro raw h
    cases raw with
    | nil => simp at h
    | cons r raw =>
      obtain ⟨v, hv⟩ := ih raw (by simpa using h)
      refine ⟨(d + jitter r) :: v, ?_⟩
      simp only [jitterVector, nextRaw, except_ok_bind, hv]
      rfl

theorem jitterLoop_ok {jitter : Nat → Dbl} {ds : List Dbl} : ∀ (n : Nat) (output : List (List Dbl))
    (raw : List Nat) {out : List (List Dbl)} {rest : List Nat},
    jitterLoop jitter ds n output raw = .ok (out, rest) →
      ∃ added, out = output ++ added ∧ added.length = n ∧
        ∀ v ∈ added, ∃ js : List Nat, js.length = ds.length ∧ (∀ j ∈ js, j ∈ raw) ∧
          v = List.zipWith (fun d j => d + jitter j) ds js := by
  intro n
  induction n with
  | zero => intro output raw out rest h; cases h; exact ⟨[], by simp, rfl, by simp⟩
  | succ n ih =>
    intro output raw out rest h
    simp only [jitterLoop, except_bind_eq_ok] at h
    obtain ⟨⟨v, raw'⟩, hv, h⟩ := h
    obtain ⟨js, h1, rfl, h3⟩ := jitterVector_ok _ _ hv
    obtain ⟨added, rfl, h5, h6⟩ := ih _ _ h
    refine ⟨v :: added, by simp, by simp [h5], ?_⟩
    intro w hw
    rcases List.mem_cons.1 hw with rfl | hw
    · exact ⟨js, h1, fun j hj => List.mem_append_left _ hj, h3⟩
    · obtain ⟨js', a1, a2, a3⟩ := h6 w hw
      exact ⟨js', a1, fun j hj => List.mem_append_right _ (a2 j hj), a3⟩

theorem jitterLoop_returns {jitter : Nat → Dbl} {ds : List Dbl} : ∀ (n : Nat) (output : List (List Dbl))
    (raw : List Nat), n * ds.length ≤ raw.length → ∃ r, jitterLoop jitter ds n output raw = .ok r := by
  intro n
  induction n with
  | zero => intro output raw _; exact ⟨_, rfl⟩
  | succ n ih =>
    intro output raw h
    rw [Nat.succ_mul] at h
    obtain ⟨v, hv⟩ := jitterVector_returns (jitter := jitter) ds raw (by omega)
    simp only [jitterLoop, hv, except_ok_bind]
    exact ih _ _ (by rw [List.length_drop]; omega)

/-- C47. A jitter that draws enough numbers: `max n (2 dim + 1)` states, the first unperturbed, each of
the others the unperturbed vector plus one jitter per coordinate. -/
theorem C47_jitter (lg : Dbl → Dbl) (b : Build) (params : ParameterStore) (jitter : Nat → Dbl) (n : Nat)
    (raw : List Nat) (t : TunableParameters) (ht : getTunableParameters lg b params = .ok t) :
    (∀ out rest, initialParamsFromJitter lg b params jitter n raw = .ok (out, rest) →
      out.length = max n (2 * params.length + 1) ∧ out.head? = some t.values ∧
      ∀ v ∈ out.tail, ∃ js : List Nat, js.length = t.values.length ∧ (∀ j ∈ js, j ∈ raw) ∧
        v = List.zipWith (fun d j => d + jitter j) t.values js) ∧
    ((max n (2 * params.length + 1) - 1) * t.values.length ≤ raw.length →
      ∃ r, initialParamsFromJitter lg b params jitter n raw = .ok r) := by
  constructor
  · intro out rest h
    simp only [initialParamsFromJitter, ht, except_ok_bind] at h
    obtain ⟨added, rfl, h2, h3⟩ := jitterLoop_ok _ _ _ h
    refine ⟨?_, rfl, ?_⟩
    · rw [List.length_append, List.length_singleton, h2]; omega
    · simpa using h3
  · intro hr
    simp only [initialParamsFromJitter, ht, except_ok_bind]
    exact jitterLoop_returns _ _ _ hr

/-! ## The chain (C46) -/

/-- Every state of the chain is obtained from its predecessor by one step. -/
def StepOf (objective : List Dbl → Dbl) (ens next : List SamplerState) : Prop :=
  next.length = ens.length ∧ (∀ k, k < ens.length → StretchMoved objective 2 2 ens next k) ∧
  ∀ (k : Nat) (s t : SamplerState), ens[k]? = some s → next[k]? = some t → t.accepted = false →
    t.params = s.params ∧ t.logProb = s.logProb

theorem samplerLoop_ok {σ : Type} {M : Nat} {b : Build} {u : UniformInt} {ur : UniformReal}
    {objective : List Dbl → Dbl} {callback : σ → Nat → List SamplerState → σ} {dim : Nat} :
    ∀ (n iter : Nat) (state : List SamplerState) (output : List (List SamplerState)) (cb : σ) (raw : List Nat)
      {out : List (List SamplerState)} {cb' : σ} {rest : List Nat},
      (∀ s ∈ state, s.Good objective dim) →
      samplerLoop M b u ur objective callback n iter state output cb raw = .ok (out, cb', rest) →
      ∃ added, out = output ++ added ∧ added.length = n ∧
        (∀ st ∈ added, st.length = state.length ∧ ∀ s ∈ st, s.Good objective dim) ∧
        List.IsChain (StepOf objective) (state :: added) ∧
        cb' = (added.zipIdx iter).foldl (fun c x => callback c x.2 x.1) cb := by
  intro n
  induction n with
  | zero =>
    intro iter state output cb raw out cb' rest _ h
    cases h
    exact ⟨[], by simp, rfl, by simp, by simp, rfl⟩
  | succ n ih =>
    intro iter state output cb raw out cb' rest hg h
    simp only [samplerLoop, except_bind_eq_ok] at h
    obtain ⟨⟨next, raw'⟩, hs, h⟩ := h
    obtain ⟨h1, h2, h3, h4⟩ := C46_step M b u ur objective 2 2 dim state raw hg next raw' hs
    obtain ⟨added, rfl, h6, h7, h8, h9⟩ := ih _ _ _ _ _ h2 h
    refine ⟨next :: added, by simp, by simp [h6], ?_, ?_, ?_⟩
    · intro st hst
      rcases List.mem_cons.1 hst with rfl | hst
      · exact ⟨h1, h2⟩
      · exact ⟨(h7 st hst).1.trans h1, (h7 st hst).2⟩
    · exact List.IsChain.cons_cons ⟨h1, h3, h4⟩ h8
    · rw [h9]; rfl

/-- C46, starting from states whose log probabilities are those of the objective.  If the sampler
returns, the chain has `maxIterations + 1` states with as many walkers as given; every walker's log
probability is finite and the objective at its parameters; consecutive states differ by one step, in
which walkers that are not accepted keep parameters and log probability; and the callback has seen
every state once, in order, with its number. -/
theorem C46_sampler {σ : Type} (M : Nat) (b : Build) (u : UniformInt) (ur : UniformReal)
    (objective : List Dbl → Dbl) (callback : σ → Nat → List SamplerState → σ)
    (initial : List SamplerState) (dim maxIterations : Nat) (cb : σ) (raw : List Nat)
    (hobj : ∀ s ∈ initial, s.logProb = objective s.params) (hdim : ∀ s ∈ initial, s.params.length = dim)
    (out : List (List SamplerState)) (cb' : σ) (rest : List Nat)
    (h : ensembleSampler M b u ur objective callback initial maxIterations cb raw = .ok (out, cb', rest)) :
    out.length = maxIterations + 1 ∧
    (∀ st ∈ out, st.length = initial.length ∧ ∀ s ∈ st, (∃ x : ℝ, s.logProb = .fin x) ∧
      s.logProb = objective s.params ∧ s.params.length = dim) ∧
    List.IsChain (StepOf objective) out ∧
    cb' = out.zipIdx.foldl (fun c x => callback c x.2 x.1) cb := by
  simp only [ensembleSampler, except_bind_eq_ok] at h
  obtain ⟨⟨state, raw'⟩, hi, h⟩ := h
  obtain ⟨h1, h2, kept, added, h3, h4, h5⟩ := C47_ensure_finite M b u ur objective initial raw state raw' hi
  have hgood : ∀ s ∈ state, s.Good objective dim := by
    intro s hs
    refine ⟨h2 s hs, ?_⟩
    rw [h3] at hs
    have hkd : ∀ s ∈ kept, s.params.length = dim := fun s hs => by
      rw [h4] at hs; exact hdim s (List.mem_filter.1 hs).1
    have had : ∀ (i : Nat) (s : SamplerState), added[i]? = some s → s.params.length = dim := by
      intro i
      induction i using Nat.strong_induction_on with
      | _ i ih =>
      intro s hs
      obtain ⟨-, x, hx, y, hy, hxy, hmix⟩ := h5 i s hs
      rw [hmix.length hxy]
      rcases List.mem_append.1 hx with hx | hx
      · exact hkd x hx
      · obtain ⟨j, hj⟩ := List.mem_iff_getElem?.1 hx
        rw [List.getElem?_take] at hj
        split at hj
        · rename_i hji
          exact ih j hji x hj
        · cases hj
    rcases List.mem_append.1 hs with hs | hs
    · refine ⟨?_, hkd s hs⟩
      rw [h4] at hs
      exact hobj s (List.mem_filter.1 hs).1
    · obtain ⟨i, hi⟩ := List.mem_iff_getElem?.1 hs
      exact ⟨(h5 i s hi).1, had i s hi⟩
  obtain ⟨added, rfl, h6, h7, h8, h9⟩ := samplerLoop_ok _ _ _ _ _ _ hgood h
  refine ⟨by simp [h6], ?_, h8, ?_⟩
  · intro st hst
    rcases List.mem_cons.1 hst with rfl | hst
    · exact ⟨h1, hgood⟩
    · exact ⟨(h7 st hst).1.trans h1, (h7 st hst).2⟩
  · rw [h9]; rfl

/-- C46 for a chain started from parameter vectors: the log probabilities are the sampler's own. -/
theorem C46_sampler_from_params {σ : Type} (M : Nat) (b : Build) (u : UniformInt) (ur : UniformReal)
    (objective : List Dbl → Dbl) (callback : σ → Nat → List SamplerState → σ)
    (params : List (List Dbl)) (dim maxIterations : Nat) (cb : σ) (raw : List Nat)
    (hdim : ∀ p ∈ params, p.length = dim)
    (out : List (List SamplerState)) (cb' : σ) (rest : List Nat)
    (h : ensembleSamplerFrom M b u ur objective callback params maxIterations cb raw =
      .ok (out, cb', rest)) :
    out.length = maxIterations + 1 ∧
    (∀ st ∈ out, st.length = params.length ∧ ∀ s ∈ st, (∃ x : ℝ, s.logProb = .fin x) ∧
      s.logProb = objective s.params ∧ s.params.length = dim) ∧
    List.IsChain (StepOf objective) out ∧
    cb' = out.zipIdx.foldl (fun c x => callback c x.2 x.1) cb := by
  have := C46_sampler M b u ur objective callback (params.map fun p => ⟨p, objective p, true⟩) dim
    maxIterations cb raw (by
      intro s hs
      obtain ⟨p, -, rfl⟩ := List.mem_map.1 hs
      rfl) (by
      intro s hs
      obtain ⟨p, hp, rfl⟩ := List.mem_map.1 hs
      exact hdim p hp) out cb' rest h
  simpa using this

/-- C46 for a model: the walkers are the jittered tunable parameters. -/
theorem C46_sampler_model {σ : Type} (M : Nat) (b : Build) (u : UniformInt) (ur : UniformReal)
    (lg : Dbl → Dbl) (jitter : Nat → Dbl) (store : ParameterStore) (t : TunableParameters)
    (ht : getTunableParameters lg b store = .ok t)
    (objective : List Dbl → Dbl) (callback : σ → Nat → List SamplerState → σ)
    (nWalkers maxIterations : Nat) (cb : σ) (raw : List Nat)
    (out : List (List SamplerState)) (cb' : σ) (rest : List Nat)
    (h : ensembleSamplerModel M b u ur lg jitter store objective callback nWalkers maxIterations cb raw =
      .ok (out, cb', rest)) :
    out.length = maxIterations + 1 ∧
    (∀ st ∈ out, st.length = max nWalkers (2 * store.length + 1) ∧
      ∀ s ∈ st, (∃ x : ℝ, s.logProb = .fin x) ∧ s.logProb = objective s.params ∧
        s.params.length = t.values.length) ∧
    List.IsChain (StepOf objective) out ∧
    cb' = out.zipIdx.foldl (fun c x => callback c x.2 x.1) cb := by
  simp only [ensembleSamplerModel, except_bind_eq_ok] at h
  obtain ⟨⟨params, raw'⟩, hp, h⟩ := h
  obtain ⟨h1, h2, h3⟩ := (C47_jitter lg b store jitter nWalkers raw t ht).1 params raw' hp
  have hdim : ∀ p ∈ params, p.length = t.values.length := by
    intro p hpm
    cases params with
    | nil => cases hpm
    | cons q qs =>
      simp only [List.head?_cons, Option.some.injEq] at h2
      rcases List.mem_cons.1 hpm with rfl | hpm
      · rw [h2]
      · obtain ⟨js, hjs, -, rfl⟩ := h3 p (by simpa using hpm)
        simp [hjs]
  have := C46_sampler_from_params M b u ur objective callback params t.values.length maxIterations cb raw'
    hdim out cb' rest h
  rw [h1] at this
  exact this

/-- C46. Once the initial states are finite and more than two, the sampler returns for every stream
that is long enough: three draws per walker and iteration. -/
theorem C46_sampler_returns {σ : Type} (M : Nat) (b : Build) (u : UniformInt) (ur : UniformReal)
    (objective : List Dbl → Dbl) (callback : σ → Nat → List SamplerState → σ)
    (initial : List SamplerState) (dim maxIterations : Nat) (cb : σ) (raw : List Nat)
    (hgood : ∀ s ∈ initial, s.Good objective dim ∧ ∀ p ∈ s.params, ∃ x : ℝ, p = .fin x)
    (hl : 2 < initial.length) (hM : initial.length < M)
    (hraw : maxIterations * (3 * initial.length) ≤ raw.length) :
    ∃ r, ensembleSampler M b u ur objective callback initial maxIterations cb raw = .ok r := by
  have hi := (C47_ensure_finite_checks M b u ur objective initial raw).1 hl
    fun s hs => ⟨(hgood s hs).1.1, (hgood s hs).2⟩
  simp only [ensembleSampler, hi, except_ok_bind]
  have : ∀ (n iter : Nat) (state : List SamplerState) (output : List (List SamplerState)) (cb : σ)
      (raw : List Nat), (∀ s ∈ state, s.Good objective dim) → state.length = initial.length →
      n * (3 * initial.length) ≤ raw.length →
      ∃ r, samplerLoop M b u ur objective callback n iter state output cb raw = .ok r := by
    intro n
    induction n with
    | zero => intro iter state output cb raw _ _ _; exact ⟨_, rfl⟩
    | succ n ih =>
      intro iter state output cb raw hg hsl hr
      rw [Nat.succ_mul] at hr
      obtain ⟨next, hn⟩ := C46_step_returns M b u ur objective 2 2 dim state raw hg (by omega) (by omega)
        (by omega) (by omega)
      obtain ⟨h1, h2, -⟩ := C46_step M b u ur objective 2 2 dim state raw hg next _ hn
      simp only [samplerLoop, hn, except_ok_bind]
      exact ih _ _ _ _ _ h2 (h1.trans hsl) (by rw [List.length_drop]; omega)
  exact this _ _ _ _ _ _ (fun s hs => (hgood s hs).1) rfl hraw

/-- C46. `random_complement` returns an index below `n` other than `i`; a debug build stops when there
is no such index. -/
theorem C46_random_complement (M : Nat) (b : Build) (u : UniformInt) (n i : Nat) (raw : List Nat)
    (hM : n < M) :
    (1 < n → ∀ j rest, randomComplement M b u n i raw = .ok (j, rest) → j < n ∧ j ≠ i) ∧
    (1 < n → (∃ r ∈ raw, u.draw 0 (n - 1) r ≠ i) → ∃ r, randomComplement M b u n i raw = .ok r) ∧
    (n ≤ 1 → randomComplement M .debug u n i raw = .error .assertFail) := by
  have hsz : 1 < n → sizeSub M n 1 = n - 1 := by
    intro h
    unfold sizeSub
    rw [show n + M - 1 = (n - 1) + M by omega, Nat.add_mod_right, Nat.mod_eq_of_lt (by omega)]
  refine ⟨?_, ?_, ?_⟩
  · intro hn j rest h
    simp only [randomComplement, except_bind_eq_ok] at h
    obtain ⟨-, -, h⟩ := h
    induction raw with
    | nil => cases h
    | cons r raw ih =>
      rw [randomComplementLoop, hsz hn] at h
      split at h
      · cases h
        have := u.le 0 (n - 1) r (by omega)
        exact ⟨by omega, by assumption⟩
      · exact ih h
  · intro hn hex
    simp only [randomComplement, show decide (n > 1) = true by simpa using hn, albatrossAssert_true,
      except_ok_bind]
    induction raw with
    | nil => simp at hex
    | cons r raw ih =>
      rw [randomComplementLoop, hsz hn]
      split
      · exact ⟨_, rfl⟩
      · rename_i hr
        refine ih ?_
        obtain ⟨x, hx, hxi⟩ := hex
        rcases List.mem_cons.1 hx with rfl | hx
        · exact absurd hxi hr
        · exact ⟨x, hx, hxi⟩
  · intro hn
    simp only [randomComplement, show decide (n > 1) = false by simpa using hn]
    rfl

/-! ## Non-vacuity -/

section Examples

noncomputable def halfUniform : UniformReal where
  draw _ := 1 / 2
  ge _ := by norm_num
  lt _ := by norm_num

/-- Three good walkers in one dimension, for the objective `-x`. -/
noncomputable def exampleObjective : List Dbl → Dbl
  | [x] => -x
  | _ => .nan

noncomputable def exampleWalkers : List SamplerState :=
  [⟨[.fin 1], .fin (-1), true⟩, ⟨[.fin 2], .fin (-2), true⟩, ⟨[.fin 3], .fin (-3), true⟩]

theorem exampleWalkers_good : ∀ s ∈ exampleWalkers, s.Good exampleObjective 1 ∧
    ∀ p ∈ s.params, ∃ x : ℝ, p = .fin x := by
  intro s hs
  simp only [exampleWalkers, List.mem_cons, List.not_mem_nil, or_false] at hs
  rcases hs with rfl | rfl | rfl <;>
    exact ⟨⟨⟨_, rfl⟩, rfl, rfl⟩, fun p hp => ⟨_, List.mem_singleton.1 hp⟩⟩

/-- A chain of four iterations exists. -/
example : ∃ r, ensembleSampler (2 ^ 64) .debug modUniform halfUniform exampleObjective
    (fun (c : Nat) _ _ => c + 1) exampleWalkers 4 0 (List.range 36) = .ok r :=
  C46_sampler_returns _ _ _ _ _ _ _ 1 4 _ _ exampleWalkers_good (by decide) (by decide) (by decide)

/-- A walker that is not finite is replaced. -/
example : ∃ out rest, ensureFiniteInitialState (2 ^ 64) .debug modUniform halfUniform exampleObjective
    (exampleWalkers ++ [⟨[.nan], .nan, true⟩]) [0, 1, 2] = .ok (out, rest) ∧ out.length = 4 := by
  have hf : (exampleWalkers ++ [(⟨[.nan], .nan, true⟩ : SamplerState)]).filter
      (fun s => s.logProb.isFinite && s.params.all Dbl.isFinite) = exampleWalkers := by
    simp [exampleWalkers, Dbl.isFinite]
  have hr : ∀ w0 w1 w2 : SamplerState, randomWithoutReplacementRest (2 ^ 64) .debug modUniform
      [w0, w1, w2] 2 [0, 1, 2] = .ok ([w0, w1], [2]) := by
    intro w0 w1 w2
    have : randintWithoutReplacement (2 ^ 64) .debug modUniform 2 0 (sizeSub (2 ^ 64) [w0, w1, w2].length 1)
        [0, 1, 2] = .ok ([0, 1], [2]) := by
      show randintWithoutReplacement (2 ^ 64) .debug modUniform 2 0 (sizeSub (2 ^ 64) 3 1) [0, 1, 2] = _
      decide +kernel
    unfold randomWithoutReplacementRest
    rw [this]
    rfl
  simp only [ensureFiniteInitialState, hf]
  have hal : albatrossAssert .debug (decide (exampleWalkers.length > 2)) = .ok () := rfl
  rw [hal, except_ok_bind, fillStates, if_pos (by decide)]
  have ha : attemptState (2 ^ 64) .debug modUniform halfUniform exampleObjective exampleWalkers [0, 1, 2] =
      .ok (⟨[.fin 1 + .fin (1 / 2) * (.fin 2 - .fin 1)], .fin (-(1 + 1 / 2 * (2 - 1))), true⟩, []) := by
    unfold attemptState exampleWalkers
    rw [hr]
    simp [vecGet, mixParams, nextRaw, vecSet, halfUniform, exampleObjective]
  split
  · rename_i h; rw [ha] at h; cases h
  · rename_i h
    rw [ha] at h
    cases h
    simp only [Dbl.isFinite, if_true]
    rw [fillStates, if_neg (by simp [exampleWalkers])]
    exact ⟨_, _, rfl, rfl⟩

end Examples

end Albatross

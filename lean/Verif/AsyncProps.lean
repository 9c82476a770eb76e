import Verif.Async
import Verif.IndexingLemmas
import Mathlib.Algebra.BigOperators.Group.Finset.Basic
import Mathlib.Algebra.Order.BigOperators.Group.Finset

/-! # Thread-pool apply: C17 -/

namespace Albatross

variable {L V ε β α K : Type}

section helpers

def PoolCall.writesOf (c : PoolCall L V ε β) (i : Nat) : List (L × V) :=
  ((c.tasks[i]?).map PoolTask.writes).getD []

/-- The invariant of every execution. -/
structure PoolInv (c : PoolCall L V ε β) (s : PoolState L V ε β) : Prop where
  started_le : s.started ≤ s.enqueued
  enq_le : s.enqueued ≤ c.tasks.length
  fut_spec : ∀ i r, s.fut i = some r → i < s.started ∧ s.rem i = [] ∧
    ∃ t, c.tasks[i]? = some t ∧ r = t.result
  rem_spec : ∀ i, s.started ≤ i → s.rem i = c.writesOf i
  rem_suffix : ∀ i, ∃ w, w ++ s.rem i = c.writesOf i
  got_spec : ∃ pre, c.order = pre ++ s.pending ∧
    pre.map s.fut = s.got.map fun v => some (Except.ok v)
  out_ok : ∀ g, s.outcome = some (.ok g) → s.pending = [] ∧ g = s.got
  out_err : ∀ e, s.outcome = some (.error e) →
    ∃ i p, s.pending = i :: p ∧ s.fut i = some (.error e)

theorem PoolReach.inv [DecidableEq L] {c : PoolCall L V ε β} {m : L → V} {s : PoolState L V ε β}
    (h : PoolReach c m s) : PoolInv c s := by
  induction h with
  | init =>
    constructor <;> simp [PoolCall.init, PoolCall.writesOf]
  | @step s s' _ hs ih =>
    cases hs with
    | enqueue hlt =>
      exact { ih with
        started_le := by have := ih.started_le; simp; omega
        enq_le := by show s.enqueued + 1 ≤ _; omega }
    | start hlt hT =>
      refine { ih with
        started_le := by show s.started + 1 ≤ s.enqueued; omega
        fut_spec := fun i r hr => ?_
        rem_spec := fun i hi => ih.rem_spec i (by simp at hi; omega) }
      obtain ⟨h1, h2⟩ := ih.fut_spec i r hr
      exact ⟨by simp; omega, h2⟩
    | write i w ws hrun hr =>
      have hi : i < s.started ∧ s.fut i = none := by simpa [PoolState.running] using hrun
      refine { ih with
        fut_spec := fun j r hj => ?_
        rem_spec := fun j hj => ?_
        rem_suffix := fun j => ?_ }
      · have hji : j ≠ i := by rintro rfl; simp [hi.2] at hj
        simpa [Function.update_of_ne hji] using ih.fut_spec j r hj
      · have hji : j ≠ i := by rintro rfl; simp at hj; omega
        simpa [Function.update_of_ne hji] using ih.rem_spec j hj
      · by_cases hji : j = i
        · subst hji
          obtain ⟨w', hw'⟩ := ih.rem_suffix j
          exact ⟨w' ++ [w], by simp [← hw', hr]⟩
        · simpa [Function.update_of_ne hji] using ih.rem_suffix j
    | finish i t hrun hr ht =>
      have hi : i < s.started ∧ s.fut i = none := by simpa [PoolState.running] using hrun
      have hkeep : ∀ j r, s.fut j = some r → Function.update s.fut i (some t.result) j = some r := by
        intro j r hj
        have hji : j ≠ i := by rintro rfl; simp [hi.2] at hj
        rw [Function.update_of_ne hji, hj]
      refine { ih with
        fut_spec := fun j r hj => ?_
        got_spec := ?_
        out_err := fun e he => ?_ }
      · by_cases hji : j = i
        · subst hji
          simp only [Function.update_self, Option.some.injEq] at hj
          exact ⟨hi.1, hr, t, ht, hj.symm⟩
        · simp only [Function.update_of_ne hji] at hj
          exact ih.fut_spec j r hj
      · obtain ⟨pre, h1, h2⟩ := ih.got_spec
        refine ⟨pre, h1, ?_⟩
        rw [← h2]
        apply List.map_congr_left
        intro j hj
        have : s.fut j ∈ pre.map s.fut := List.mem_map_of_mem hj
        rw [h2, List.mem_map] at this
        obtain ⟨v, -, hv⟩ := this
        rw [← hv]
        exact hkeep j _ hv.symm
      · obtain ⟨j, p, h1, h2⟩ := ih.out_err e he
        exact ⟨j, p, h1, hkeep j _ h2⟩
    | get i p v he ho hp hf =>
      obtain ⟨pre, h1, h2⟩ := ih.got_spec
      refine { ih with
        got_spec := ⟨pre ++ [i], by simp [h1, hp], by simp [h2, hf]⟩
        out_ok := fun g hg => by simp [ho] at hg
        out_err := fun e hg => by simp [ho] at hg }
    | getThrow i p e he ho hp hf =>
      refine { ih with
        out_ok := fun g hg => by simp at hg
        out_err := fun e' hg => ?_ }
      simp at hg
      subst hg
      exact ⟨i, p, hp, hf⟩
    | ret he ho hp =>
      refine { ih with
        out_ok := fun g hg => ?_
        out_err := fun e hg => by simp at hg }
      simp at hg
      exact ⟨hp, hg.symm⟩

/-- The outcome of the tasks read in the given order, stopping at the first exception. -/
def PoolCall.serial (c : PoolCall L V ε β) : Except ε (List β) :=
  (c.order.filterMap fun i => (c.tasks[i]?).map PoolTask.result).mapM id

theorem mapM_ok_append (rs : List β) (tl : List (Except ε β)) :
    ((rs.map Except.ok ++ tl).mapM id : Except ε (List β)) =
      (tl.mapM id).map (rs ++ ·) := by
  induction rs with
  | nil => simp; cases tl.mapM id <;> rfl
  | cons r rs ih =>
    rw [List.map_cons, List.cons_append, List.mapM_cons, ih]
    cases tl.mapM id <;> rfl

theorem PoolInv.outcome_eq {c : PoolCall L V ε β} {s : PoolState L V ε β} (h : PoolInv c s)
    (r : Except ε (List β)) (hr : s.outcome = some r) : r = c.serial := by
  obtain ⟨pre, h1, h2⟩ := h.got_spec
  have hpre : pre.filterMap (fun i => (c.tasks[i]?).map PoolTask.result) = s.got.map Except.ok := by
    have hlen : ∀ (pre : List Nat) (got : List β),
        pre.map s.fut = got.map (fun v => some (Except.ok v)) →
        pre.filterMap (fun i => (c.tasks[i]?).map PoolTask.result) = got.map Except.ok := by
      intro pre
      induction pre with
      | nil => intro got hg; cases got with
        | nil => rfl
        | cons _ _ => simp at hg
      | cons i pre ih =>
        intro got hg
        cases got with
        | nil => simp at hg
        | cons v got =>
          simp only [List.map_cons, List.cons.injEq] at hg
          obtain ⟨-, -, t, ht, hv⟩ := h.fut_spec i _ hg.1
          rw [List.filterMap_cons, ht]
          simp only [Option.map_some, List.map_cons]
          rw [ih got hg.2, ← hv]
    exact hlen pre s.got h2
  unfold PoolCall.serial
  rw [h1, List.filterMap_append, hpre, mapM_ok_append]
  cases r with
  | ok g =>
    obtain ⟨hp, rfl⟩ := h.out_ok g hr
    rw [hp]
    simp [Except.map, pure, Except.pure]
  | error e =>
    obtain ⟨i, p, hp, hf⟩ := h.out_err e hr
    obtain ⟨-, -, t, ht, he⟩ := h.fut_spec i _ hf
    rw [hp, List.filterMap_cons, ht]
    simp only [Option.map_some]
    rw [List.mapM_cons, ← he]
    rfl

theorem filterMap_range_tasks (ts : List α) (g : α → β) :
    (List.range ts.length).filterMap (fun i => (ts[i]?).map g) = ts.map g := by
  induction ts with
  | nil => rfl
  | cons t ts ih =>
    rw [List.length_cons, List.range_succ_eq_map, List.filterMap_cons]
    simp only [List.getElem?_cons_zero, Option.map_some, List.filterMap_map, List.map_cons]
    congr 1

theorem mapM_id_map (f : α → Except ε β) (xs : List α) :
    ((xs.map f).mapM id : Except ε (List β)) = xs.mapM f := by
  induction xs with
  | nil => rfl
  | cons x xs ih => rw [List.map_cons, List.mapM_cons, List.mapM_cons, ih]; rfl

theorem applyVector_serial (f : α → PoolTask L V ε β) (xs : List α) (T : Nat) :
    (applyVectorCall f xs T).serial = applySerial (fun x => (f x).result) xs := by
  unfold PoolCall.serial applyVectorCall applySerial
  have h := filterMap_range_tasks (xs.map f) PoolTask.result
  rw [List.length_map] at h
  rw [h, List.map_map, mapM_id_map]
  rfl

/-- Measure that every step decreases. -/
def poolMeasure (c : PoolCall L V ε β) (s : PoolState L V ε β) : Nat :=
  (c.tasks.length - s.enqueued) + (c.tasks.length - s.started) +
    ∑ i ∈ Finset.range c.tasks.length, (s.rem i).length +
    ∑ i ∈ Finset.range c.tasks.length, (if (s.fut i).isSome then 0 else 1) +
    s.pending.length + (if s.outcome.isSome then 0 else 1)

theorem sum_update_lt {n i : Nat} (hi : i < n) (f g : Nat → Nat) (hlt : g i < f i)
    (heq : ∀ j, j ≠ i → g j = f j) :
    ∑ j ∈ Finset.range n, g j < ∑ j ∈ Finset.range n, f j := by
  apply Finset.sum_lt_sum
  · intro j _
    by_cases h : j = i
    · subst h; omega
    · rw [heq j h]
  · exact ⟨i, Finset.mem_range.2 hi, hlt⟩

theorem poolStep_decreases [DecidableEq L] {c : PoolCall L V ε β} {m : L → V}
    {s s' : PoolState L V ε β} (hr : PoolReach c m s) (hs : PoolStep c s s') :
    poolMeasure c s' < poolMeasure c s := by
  have inv := hr.inv
  have h1 := inv.started_le
  have h2 := inv.enq_le
  cases hs with
  | enqueue h => simp only [poolMeasure]; omega
  | start h hT => simp only [poolMeasure]; omega
  | write i w ws hrun hrem =>
    have hi : i < s.started ∧ s.fut i = none := by simpa [PoolState.running] using hrun
    have := sum_update_lt (show i < c.tasks.length by omega) (fun j => (s.rem j).length)
      (fun j => (Function.update s.rem i ws j).length) (by simp [hrem])
      (fun j hj => by simp [Function.update_of_ne hj])
    simp only [poolMeasure] at *
    omega
  | finish i t hrun hrem ht =>
    have hi : i < s.started ∧ s.fut i = none := by simpa [PoolState.running] using hrun
    have := sum_update_lt (show i < c.tasks.length by omega)
      (fun j => if (s.fut j).isSome then 0 else 1)
      (fun j => if (Function.update s.fut i (some t.result) j).isSome then 0 else 1)
      (by simp [hi.2]) (fun j hj => by simp [Function.update_of_ne hj])
    simp only [poolMeasure] at *
    omega
  | get i p v he ho hp hf => simp only [poolMeasure, hp, List.length_cons]; omega
  | getThrow i p e he ho hp hf => simp [poolMeasure, ho]
  | ret he ho hp => simp [poolMeasure, ho]

/-- `PoolReach` counting steps. -/
inductive PoolReachIn [DecidableEq L] (c : PoolCall L V ε β) (m : L → V) :
    Nat → PoolState L V ε β → Prop
  | init : PoolReachIn c m 0 (c.init m)
  | step {k s s'} : PoolReachIn c m k s → PoolStep c s s' → PoolReachIn c m (k + 1) s'

theorem PoolReachIn.reach [DecidableEq L] {c : PoolCall L V ε β} {m : L → V} {k : Nat}
    {s : PoolState L V ε β} (h : PoolReachIn c m k s) : PoolReach c m s := by
  induction h with
  | init => exact .init
  | step _ hs ih => exact ih.step hs

theorem PoolReachIn.bound [DecidableEq L] {c : PoolCall L V ε β} {m : L → V} {k : Nat}
    {s : PoolState L V ε β} (h : PoolReachIn c m k s) :
    k + poolMeasure c s ≤ poolMeasure c (c.init m) := by
  induction h with
  | init => simp
  | step hr hs ih => have := poolStep_decreases hr.reach hs; omega

/-- Progress. -/
theorem pool_progress [DecidableEq L] (c : PoolCall L V ε β) (m : L → V) (hT : 0 < c.threads)
    (horder : ∀ i ∈ c.order, i < c.tasks.length) (s : PoolState L V ε β) (h : PoolReach c m s)
    (ho : s.outcome = none) : ∃ s', PoolStep c s s' := by
  have inv := h.inv
  have h2 := inv.enq_le
  by_cases he : s.enqueued < c.tasks.length
  · exact ⟨_, .enqueue he⟩
  have he : s.enqueued = c.tasks.length := by omega
  have hrunstep : ∀ i, s.running i = true → ∃ s', PoolStep c s s' := by
    intro i hrun
    have hi : i < s.started ∧ s.fut i = none := by simpa [PoolState.running] using hrun
    have := inv.started_le
    cases hrem : s.rem i with
    | nil =>
      exact ⟨_, .finish i c.tasks[i] hrun hrem (List.getElem?_eq_getElem (by omega))⟩
    | cons w ws => exact ⟨_, .write i w ws hrun hrem⟩
  cases hp : s.pending with
  | nil => exact ⟨_, .ret he ho hp⟩
  | cons i p =>
    have hi : i < c.tasks.length := by
      obtain ⟨pre, h1, -⟩ := inv.got_spec
      apply horder
      rw [h1, hp]
      simp
    cases hf : s.fut i with
    | some r =>
      cases r with
      | ok v => exact ⟨_, .get i p v he ho hp hf⟩
      | error e => exact ⟨_, .getThrow i p e he ho hp hf⟩
    | none =>
      by_cases hst : i < s.started
      · exact hrunstep i (by simp [PoolState.running, hst, hf])
      · by_cases hn : s.numRunning < c.threads
        · exact ⟨_, .start (by omega) hn⟩
        · have : 0 < s.numRunning := by omega
          unfold PoolState.numRunning at this
          obtain ⟨j, hj⟩ := List.exists_mem_of_length_pos this
          rw [List.mem_filter] at hj
          exact hrunstep j hj.2

/-! ### Memory -/

theorem writeAll_append [DecidableEq L] (m : L → V) (a b : List (L × V)) :
    writeAll m (a ++ b) = writeAll (writeAll m a) b := List.foldl_append

theorem writeAll_of_not_mem [DecidableEq L] (ws : List (L × V)) :
    ∀ (m : L → V) (l : L), l ∉ ws.map Prod.fst → writeAll m ws l = m l := by
  induction ws with
  | nil => intro m l _; rfl
  | cons w ws ih =>
    intro m l hl
    simp only [List.map_cons, List.mem_cons, not_or] at hl
    change writeAll (writeMem m w) ws l = m l
    rw [ih _ l hl.2]
    simp [writeMem, hl.1]

theorem writeAll_congr [DecidableEq L] (ws : List (L × V)) :
    ∀ (m m' : L → V) (l : L), m l = m' l → writeAll m ws l = writeAll m' ws l := by
  induction ws with
  | nil => intro m m' l h; exact h
  | cons w ws ih =>
    intro m m' l h
    refine ih _ _ l ?_
    simp [writeMem, h]

/-- The tasks write to pairwise disjoint sets of locations (no data race). -/
def PoolCall.RaceFree (c : PoolCall L V ε β) : Prop :=
  ∀ i j, i ≠ j → ∀ l ∈ (c.writesOf i).map Prod.fst, l ∉ (c.writesOf j).map Prod.fst

theorem pool_memory [DecidableEq L] {c : PoolCall L V ε β} (hrf : c.RaceFree) {m : L → V}
    {s : PoolState L V ε β} (h : PoolReach c m s) :
    (∀ l, (∀ i, l ∉ (c.writesOf i).map Prod.fst) → s.mem l = m l) ∧
    ∀ i l, l ∈ (c.writesOf i).map Prod.fst → ∀ w, w ++ s.rem i = c.writesOf i →
      s.mem l = writeAll m w l := by
  induction h with
  | init =>
    refine ⟨fun l _ => rfl, fun i l _ w hw => ?_⟩
    have : w = [] := by
      have : (w ++ c.writesOf i) = c.writesOf i := hw
      simpa using this
    subst this; rfl
  | @step s s' hr hs ih =>
    cases hs with
    | enqueue _ => exact ih
    | start _ _ => exact ih
    | finish _ _ _ _ _ => exact ih
    | get _ _ _ _ _ _ _ => exact ih
    | getThrow _ _ _ _ _ _ _ => exact ih
    | ret _ _ _ => exact ih
    | write i w ws hrun hrem =>
      obtain ⟨u, hu⟩ := hr.inv.rem_suffix i
      have hw : w.1 ∈ (c.writesOf i).map Prod.fst := by
        rw [← hu, hrem]; simp
      constructor
      · intro l hl
        have hne : l ≠ w.1 := by rintro rfl; exact hl i hw
        simp only [writeMem, if_neg hne]
        exact ih.1 l hl
      · intro j l hl v hv
        by_cases hji : j = i
        · subst hji
          simp only [Function.update_self] at hv
          have hvu : v = u ++ [w] := by
            have : v ++ ws = (u ++ [w]) ++ ws := by
              rw [hv, ← hu, hrem]; simp
            exact List.append_cancel_right this
          subst hvu
          rw [writeAll_append]
          have := ih.2 j l hl u hu
          change writeMem s.mem w l = writeMem (writeAll m u) w l
          simp [writeMem, this]
        · simp only [Function.update_of_ne hji] at hv
          have hne : l ≠ w.1 := by
            rintro rfl
            exact hrf j i hji _ hl hw
          simp only [writeMem, if_neg hne]
          exact ih.2 j l hl v hv

/-- Normal return means that everything in `order` is done. -/
theorem pool_done [DecidableEq L] {c : PoolCall L V ε β} {m : L → V} {s : PoolState L V ε β}
    (h : PoolReach c m s) (g : List β) (ho : s.outcome = some (.ok g)) :
    ∀ i ∈ c.order, i < s.started ∧ (s.fut i).isSome ∧ s.rem i = [] := by
  have inv := h.inv
  obtain ⟨hp, -⟩ := inv.out_ok g ho
  obtain ⟨pre, h1, h2⟩ := inv.got_spec
  intro i hi
  rw [h1, hp, List.append_nil] at hi
  have : s.fut i ∈ pre.map s.fut := List.mem_map_of_mem hi
  rw [h2, List.mem_map] at this
  obtain ⟨v, -, hv⟩ := this
  obtain ⟨g1, g2, -⟩ := inv.fut_spec i _ hv.symm
  exact ⟨g1, by rw [← hv]; rfl, g2⟩

/-- Serial execution of the writes of all tasks. -/
theorem serial_memory [DecidableEq L] (ts : List (List (L × V)))
    (hd : ts.Pairwise fun a b => ∀ l ∈ a.map Prod.fst, l ∉ b.map Prod.fst) (m : L → V)
    (t : List (L × V)) (ht : t ∈ ts) (l : L) (hl : l ∈ t.map Prod.fst) :
    writeAll m ts.flatten l = writeAll m t l := by
  induction ts generalizing m with
  | nil => simp at ht
  | cons a ts ih =>
    rw [List.pairwise_cons] at hd
    rw [List.flatten_cons, writeAll_append]
    rcases List.mem_cons.1 ht with rfl | ht
    · apply writeAll_of_not_mem
      intro hmem
      rw [List.mem_map] at hmem
      obtain ⟨w, hw, rfl⟩ := hmem
      rw [List.mem_flatten] at hw
      obtain ⟨b, hb, hwb⟩ := hw
      exact hd.1 b hb _ hl (List.mem_map_of_mem hwb)
    · rw [ih hd.2 (writeAll m a) ht]
      apply writeAll_congr
      apply writeAll_of_not_mem
      intro hmem
      exact hd.1 t ht l hmem hl

theorem foldl_put_append [LinearOrder K] (l : SMap K α) : ∀ (m : SMap K α), SMap.WF (m ++ l) →
    l.foldl (fun m x => SMap.put m x.1 x.2) m = m ++ l := by
  induction l with
  | nil => intro m _; simp
  | cons x l ih =>
    intro m h
    have hx : ∀ y ∈ m, y.1 < x.1 := by
      intro y hy
      exact (List.pairwise_append.1 h).2.2 y hy x (by simp)
    have hput : SMap.put m x.1 x.2 = m ++ [x] := by
      unfold SMap.put
      rw [SMap.alter_of_gt _ hx]
    rw [List.foldl_cons, hput, ih (m ++ [x]) (by simpa using h)]
    simp

theorem zipIdx_key_map [LinearOrder K] (xs : SMap K α) (n : Nat) :
    (xs.zipIdx n).map (fun x => x.1.1) = xs.map Prod.fst := by
  induction xs generalizing n with
  | nil => rfl
  | cons x xs ih => simp [List.zipIdx_cons, ih]

theorem futuresMap_eq [LinearOrder K] (xs : SMap K α) (h : SMap.WF xs) :
    futuresMap xs = xs.zipIdx.map fun x => (x.1.1, x.2) := by
  have hwf : SMap.WF (xs.zipIdx.map fun x => (x.1.1, x.2)) := by
    rw [SMap.wf_iff_keys]
    have : SMap.keys (xs.zipIdx.map fun x => (x.1.1, x.2)) = SMap.keys xs := by
      simp only [SMap.keys, List.map_map]
      exact zipIdx_key_map xs 0
    rw [this]
    exact SMap.wf_iff_keys.1 h
  have := foldl_put_append (xs.zipIdx.map fun x => (x.1.1, x.2)) [] (by simpa using hwf)
  rw [List.foldl_map, List.nil_append] at this
  exact this

theorem futuresMap_order [LinearOrder K] (xs : SMap K α) (h : SMap.WF xs) :
    (futuresMap xs).map Prod.snd = List.range xs.length := by
  rw [futuresMap_eq xs h, List.map_map]
  have : (Prod.snd ∘ fun x : (K × α) × Nat => (x.1.1, x.2)) = Prod.snd := rfl
  rw [this, List.zipIdx_map_snd, List.range_eq_range']

theorem applyMapOutput_eq [LinearOrder K] (xs : SMap K α) (h : SMap.WF xs) (got : List β)
    (hl : got.length = xs.length) : applyMapOutput xs got = (xs.map Prod.fst).zip got := by
  unfold applyMapOutput
  have hk : (futuresMap xs).map Prod.fst = xs.map Prod.fst := by
    rw [futuresMap_eq xs h, List.map_map]
    exact zipIdx_key_map xs 0
  rw [hk]
  have hwf : SMap.WF ((xs.map Prod.fst).zip got) := by
    rw [SMap.wf_iff_keys]
    have : SMap.keys ((xs.map Prod.fst).zip got) = SMap.keys xs := by
      unfold SMap.keys
      rw [List.map_fst_zip (by simp [hl])]
    rw [this]
    exact SMap.wf_iff_keys.1 h
  have := foldl_put_append ((xs.map Prod.fst).zip got) [] (by simpa using hwf)
  simpa using this

theorem applyMap_serial [LinearOrder K] (f : K → α → PoolTask L V ε β) (xs : SMap K α) (T : Nat)
    (h : SMap.WF xs) :
    (applyMapCall f xs T).serial = xs.mapM fun x => (f x.1 x.2).result := by
  unfold PoolCall.serial applyMapCall
  simp only
  rw [futuresMap_order xs h]
  have h := filterMap_range_tasks (xs.map fun x => f x.1 x.2) PoolTask.result
  rw [List.length_map] at h
  rw [h, List.map_map, mapM_id_map]
  rfl

theorem applyMapSerial_loop [LinearOrder K] (f : K → α → Except ε β) (xs : SMap K α) :
    ∀ (out : SMap K β), (∀ y ∈ out, ∀ x ∈ xs, y.1 < x.1) → SMap.WF xs →
      xs.foldlM (fun out x => do
        let v ← f x.1 x.2
        pure (SMap.emplace out x.1 v)) out =
      (xs.mapM fun x => f x.1 x.2).map fun vs => out ++ (xs.map Prod.fst).zip vs := by
  induction xs with
  | nil => intro out _ _; simp [Except.map, pure, Except.pure]
  | cons x xs ih =>
    intro out ho hwf
    rw [List.foldlM_cons, List.mapM_cons]
    cases hv : f x.1 x.2 with
    | error e => rfl
    | ok v =>
      have hm : ∀ y ∈ out, y.1 < x.1 := fun y hy => ho y hy x (by simp)
      have hemp : SMap.emplace out x.1 v = out ++ [(x.1, v)] := by
        rw [SMap.emplace, SMap.alter_of_gt _ hm]; rfl
      have hih := ih (out ++ [(x.1, v)]) (by
        intro y hy z hz
        rcases List.mem_append.1 hy with hy | hy
        · exact ho y hy z (List.mem_cons_of_mem _ hz)
        · rw [List.mem_singleton] at hy
          subst hy
          exact (List.pairwise_cons.1 hwf).1 z hz) (List.pairwise_cons.1 hwf).2
      have h0 : ((do
          let v ← (Except.ok v : Except ε β)
          pure (SMap.emplace out x.1 v)) : Except ε (SMap K β)) = .ok (out ++ [(x.1, v)]) := by
        rw [← hemp]; rfl
      rw [h0]
      refine Eq.trans (b := _) hih ?_
      cases xs.mapM fun x => f x.1 x.2 with
      | error e => rfl
      | ok vs => simp [Except.map, pure, Except.pure, bind, Except.bind]

theorem applyMapSerial_eq [LinearOrder K] (f : K → α → Except ε β) (xs : SMap K α)
    (h : SMap.WF xs) :
    applyMapSerial f xs = (xs.mapM fun x => f x.1 x.2).map fun vs => (xs.map Prod.fst).zip vs := by
  have := applyMapSerial_loop f xs [] (by simp) h
  simpa [applyMapSerial] using this

theorem mapM_ok_length (f : α → Except ε β) (xs : List α) (ys : List β) (h : xs.mapM f = .ok ys) :
    ys.length = xs.length := by
  induction xs generalizing ys with
  | nil => simp [pure, Except.pure] at h; subst h; rfl
  | cons x xs ih =>
    rw [List.mapM_cons] at h
    cases hx : f x with
    | error e => rw [hx] at h; cases h
    | ok v =>
      cases hxs : xs.mapM f with
      | error e => rw [hx, hxs] at h; cases h
      | ok vs =>
        rw [hx, hxs] at h
        cases h
        simp [ih vs hxs]

theorem mapM_error_first (f : α → Except ε β) (xs : List α) (e : ε) :
    xs.mapM f = .error e ↔ ∃ i, ∃ h : i < xs.length, f xs[i] = .error e ∧
      ∀ j, ∀ h' : j < i, ∃ v, f (xs[j]'(by omega)) = .ok v := by
  induction xs with
  | nil => simp [pure, Except.pure]
  | cons x xs ih =>
    rw [List.mapM_cons]
    cases hx : f x with
    | error e' =>
      have : ((do let y ← (Except.error e' : Except ε β); let ys ← xs.mapM f; pure (y :: ys)) :
        Except ε (List β)) = .error e' := rfl
      rw [this]
      constructor
      · intro h
        cases h
        exact ⟨0, by simp, by simpa using hx, by intro j hj; omega⟩
      · rintro ⟨i, hi, h1, h2⟩
        cases i with
        | zero => simp [hx] at h1; rw [h1]
        | succ i =>
          obtain ⟨v, hv⟩ := h2 0 (by omega)
          simp [hx] at hv
    | ok v =>
      have : ((do let y ← (Except.ok v : Except ε β); let ys ← xs.mapM f; pure (y :: ys)) :
        Except ε (List β)) = (xs.mapM f).map (v :: ·) := by
        cases xs.mapM f <;> rfl
      rw [this]
      have h2 : (xs.mapM f).map (v :: ·) = .error e ↔ xs.mapM f = .error e := by
        cases xs.mapM f <;> simp [Except.map]
      rw [h2, ih]
      constructor
      · rintro ⟨i, hi, h1, h2⟩
        refine ⟨i + 1, by simp; omega, by simpa using h1, ?_⟩
        intro j hj
        cases j with
        | zero => exact ⟨v, by simpa using hx⟩
        | succ j => simpa using h2 j (by omega)
      · rintro ⟨i, hi, h1, h2⟩
        cases i with
        | zero => simp [hx] at h1
        | succ i =>
          refine ⟨i, by simpa using hi, by simpa using h1, ?_⟩
          intro j hj
          simpa using h2 (j + 1) (by omega)

theorem mapM_ok_iff (f : α → Except ε β) (xs : List α) (ys : List β) :
    xs.mapM f = .ok ys ↔ xs.map f = ys.map Except.ok := by
  induction xs generalizing ys with
  | nil => cases ys <;> simp [pure, Except.pure]
  | cons x xs ih =>
    rw [List.mapM_cons]
    cases hx : f x with
    | error e => cases ys <;> simp [bind, Except.bind, hx]
    | ok v =>
      cases ys with
      | nil => cases hxs : xs.mapM f <;> simp [bind, Except.bind, pure, Except.pure]
      | cons y ys =>
        rw [List.map_cons, List.map_cons, List.cons.injEq, ← ih ys, hx]
        cases hxs : xs.mapM f <;> simp [bind, Except.bind, pure, Except.pure]

end helpers

/-! ## C17 -/

/-- C17 (vectors): whatever the schedule, if `apply` with a pool returns it returns the values of the
function at the inputs, in input order. -/
theorem C17_apply_value [DecidableEq L] (f : α → PoolTask L V ε β) (xs : List α) (T : Nat)
    (m : L → V) (s : PoolState L V ε β) (h : PoolReach (applyVectorCall f xs T) m s) (out : List β)
    (ho : s.outcome = some (.ok out)) :
    out.map Except.ok = xs.map fun x => (f x).result := by
  have := h.inv.outcome_eq _ ho
  rw [applyVector_serial, applySerial] at this
  exact ((mapM_ok_iff _ _ _).1 this.symm).symm

/-- C17 (vectors): if it throws, the exception is that of the first failing input, whatever the
order in which the tasks failed. -/
theorem C17_apply_exception [DecidableEq L] (f : α → PoolTask L V ε β) (xs : List α) (T : Nat)
    (m : L → V) (s : PoolState L V ε β) (h : PoolReach (applyVectorCall f xs T) m s) (e : ε)
    (ho : s.outcome = some (.error e)) :
    ∃ i, ∃ hi : i < xs.length, (f xs[i]).result = .error e ∧
      ∀ j, ∀ hj : j < i, ∃ v, (f (xs[j]'(by omega))).result = .ok v := by
  have := h.inv.outcome_eq _ ho
  rw [applyVector_serial, applySerial] at this
  exact (mapM_error_first (fun x => (f x).result) xs e).1 this.symm

/-- C17 (vectors): the pooled call and the serial call have the same outcome. -/
theorem C17_apply_serial [DecidableEq L] (f : α → PoolTask L V ε β) (xs : List α) (T : Nat)
    (m : L → V) (s : PoolState L V ε β) (h : PoolReach (applyVectorCall f xs T) m s)
    (r : Except ε (List β)) (ho : s.outcome = some r) :
    r = applySerial (fun x => (f x).result) xs := by
  rw [h.inv.outcome_eq _ ho, applyVector_serial]

/-- C17 (maps): the pooled `apply_map` gives the serial map, entry for entry, or the same
exception. -/
theorem C17_apply_map_serial [DecidableEq L] [LinearOrder K] (f : K → α → PoolTask L V ε β)
    (xs : SMap K α) (hxs : SMap.WF xs) (T : Nat) (m : L → V) (s : PoolState L V ε β)
    (h : PoolReach (applyMapCall f xs T) m s) (r : Except ε (List β)) (ho : s.outcome = some r) :
    r.map (applyMapOutput xs) = applyMapSerial (fun k x => (f k x).result) xs := by
  rw [h.inv.outcome_eq _ ho, applyMap_serial f xs T hxs, applyMapSerial_eq _ xs hxs]
  cases hm : xs.mapM fun x => (f x.1 x.2).result with
  | error e => rfl
  | ok vs =>
    have hl := mapM_ok_length _ _ _ hm
    simp only [Except.map]
    rw [applyMapOutput_eq xs hxs vs hl]

/-- C17 (maps), pointwise: a returned map has, at every key, the function's value there. -/
theorem C17_apply_map_value [DecidableEq L] [LinearOrder K] (f : K → α → PoolTask L V ε β)
    (xs : SMap K α) (hxs : SMap.WF xs) (T : Nat) (m : L → V) (s : PoolState L V ε β)
    (h : PoolReach (applyMapCall f xs T) m s) (got : List β) (ho : s.outcome = some (.ok got)) :
    SMap.WF (applyMapOutput xs got) ∧
    ∀ k, ((applyMapOutput xs got).find? k).map Except.ok =
      (xs.find? k).map fun x => (f k x).result := by
  have h1 := h.inv.outcome_eq _ ho
  rw [applyMap_serial f xs T hxs] at h1
  have hl := mapM_ok_length _ _ _ h1.symm
  have h2 := (mapM_ok_iff _ _ _).1 h1.symm
  rw [applyMapOutput_eq xs hxs got hl]
  have hkeys : SMap.keys ((xs.map Prod.fst).zip got) = SMap.keys xs := by
    unfold SMap.keys
    rw [List.map_fst_zip (by simp [hl])]
  refine ⟨by rw [SMap.wf_iff_keys, hkeys]; exact SMap.wf_iff_keys.1 hxs, fun k => ?_⟩
  clear hkeys h1 ho h
  induction xs generalizing got with
  | nil => cases got with
    | nil => rfl
    | cons _ _ => simp at hl
  | cons x xs ih =>
    cases got with
    | nil => simp at hl
    | cons g got =>
      obtain ⟨k', v'⟩ := x
      simp only [List.map_cons, List.cons.injEq] at h2
      simp only [List.map_cons, List.zip_cons_cons, SMap.find?]
      by_cases hk : k' = k
      · subst hk; simp [h2.1]
      · have := ih (List.pairwise_cons.1 hxs).2 got (by simpa using hl) h2.2
        rw [if_neg (Ne.symm hk), if_neg (Ne.symm hk)]
        exact this

/-- C17: the call cannot hang.  Every schedule has a bounded number of steps, and as long as the call
has neither returned nor thrown there is a step to make. -/
theorem C17_apply_terminates [DecidableEq L] (f : α → PoolTask L V ε β) (xs : List α) (T : Nat)
    (hT : 0 < T) (m : L → V) :
    (∃ bound, ∀ k s, PoolReachIn (applyVectorCall f xs T) m k s → k ≤ bound) ∧
    ∀ s, PoolReach (applyVectorCall f xs T) m s → s.outcome = none →
      ∃ s', PoolStep (applyVectorCall f xs T) s s' := by
  refine ⟨⟨_, fun k s h => le_trans (Nat.le_add_right _ _) h.bound⟩, fun s h ho => ?_⟩
  exact pool_progress _ m hT (by simp [applyVectorCall]) s h ho

theorem C17_apply_map_terminates [DecidableEq L] [LinearOrder K] (f : K → α → PoolTask L V ε β)
    (xs : SMap K α) (hxs : SMap.WF xs) (T : Nat) (hT : 0 < T) (m : L → V) :
    (∃ bound, ∀ k s, PoolReachIn (applyMapCall f xs T) m k s → k ≤ bound) ∧
    ∀ s, PoolReach (applyMapCall f xs T) m s → s.outcome = none →
      ∃ s', PoolStep (applyMapCall f xs T) s s' := by
  refine ⟨⟨_, fun k s h => le_trans (Nat.le_add_right _ _) h.bound⟩, fun s h ho => ?_⟩
  refine pool_progress _ m hT ?_ s h ho
  simp [applyMapCall, futuresMap_order xs hxs]

/-- C17 (`void` functions): if the calls write to disjoint locations, then when `apply` returns
memory is as after running the calls one after the other. -/
theorem C17_apply_memory [DecidableEq L] (f : α → PoolTask L V ε β) (xs : List α) (T : Nat)
    (hd : xs.Pairwise fun x y => ∀ l ∈ (f x).writes.map Prod.fst, l ∉ (f y).writes.map Prod.fst)
    (m : L → V) (s : PoolState L V ε β) (h : PoolReach (applyVectorCall f xs T) m s) (out : List β)
    (ho : s.outcome = some (.ok out)) :
    s.mem = writeAll m (xs.map fun x => (f x).writes).flatten := by
  have hw : ∀ i, (applyVectorCall f xs T).writesOf i = ((xs[i]?).map fun x => (f x).writes).getD [] := by
    intro i
    simp [PoolCall.writesOf, applyVectorCall, Function.comp_def]
  have hrf : (applyVectorCall f xs T).RaceFree := by
    intro i j hij l hl hl'
    rw [hw] at hl hl'
    cases hi : xs[i]? with
    | none => simp [hi] at hl
    | some x =>
      cases hj : xs[j]? with
      | none => simp [hj] at hl'
      | some y =>
        rw [hi] at hl; rw [hj] at hl'
        simp only [Option.map_some, Option.getD_some] at hl hl'
        obtain ⟨hi', rfl⟩ := List.getElem?_eq_some_iff.1 hi
        obtain ⟨hj', rfl⟩ := List.getElem?_eq_some_iff.1 hj
        rcases Nat.lt_or_gt_of_ne hij with hlt | hlt
        · exact List.pairwise_iff_getElem.1 hd i j hi' hj' hlt l hl hl'
        · exact List.pairwise_iff_getElem.1 hd j i hj' hi' hlt l hl' hl
  have hmem := pool_memory hrf h
  have hdone := pool_done h out ho
  funext l
  by_cases hl : ∃ x ∈ xs, l ∈ (f x).writes.map Prod.fst
  · obtain ⟨x, hx, hlx⟩ := hl
    obtain ⟨i, hi, rfl⟩ := List.getElem_of_mem hx
    have hwi : (applyVectorCall f xs T).writesOf i = (f xs[i]).writes := by simp [hw, hi]
    have hr := (hdone i (by simp [applyVectorCall, hi])).2.2
    have h1 := hmem.2 i l (by rw [hwi]; exact hlx) (f xs[i]).writes (by rw [hr, hwi]; simp)
    have hd' : (xs.map fun x => (f x).writes).Pairwise
        fun a b => ∀ l ∈ a.map Prod.fst, l ∉ b.map Prod.fst := by
      rw [List.pairwise_map]; exact hd
    rw [h1, serial_memory _ hd' m (f xs[i]).writes (List.mem_map.2 ⟨_, hx, rfl⟩) l hlx]
  · have h1 := hmem.1 l (by
      intro i hli
      rw [hw] at hli
      cases hi : xs[i]? with
      | none => simp [hi] at hli
      | some x =>
        rw [hi] at hli
        exact hl ⟨x, List.mem_of_getElem? hi, hli⟩)
    rw [h1, writeAll_of_not_mem]
    intro hmem'
    rw [List.mem_map] at hmem'
    obtain ⟨w, hw', rfl⟩ := hmem'
    rw [List.mem_flatten] at hw'
    obtain ⟨b, hb, hwb⟩ := hw'
    obtain ⟨x, hx, rfl⟩ := List.mem_map.1 hb
    exact hl ⟨x, hx, List.mem_map_of_mem hwb⟩

/-- C17: with a null pool or at most one thread the serial code runs. -/
theorem C17_serial_iff (pool : Option Nat) :
    shouldSerialApply pool = true ↔ ∀ t, pool = some t → t < 2 := by
  cases pool with
  | none => simp [shouldSerialApply]
  | some t => simp [shouldSerialApply]; omega

/-! ## C74 -/

/-- C74 (normal return): when `apply` returns no call is queued or executing. -/
theorem C74_normal_return_partial [DecidableEq L] (f : α → PoolTask L V ε β) (xs : List α) (T : Nat)
    (m : L → V) (s : PoolState L V ε β) (h : PoolReach (applyVectorCall f xs T) m s) (out : List β)
    (ho : s.outcome = some (.ok out)) :
    s.started = xs.length ∧ ∀ i, s.running i = false := by
  have hdone := pool_done h out ho
  have h1 := h.inv.started_le
  have h2 := h.inv.enq_le
  have hlen : (applyVectorCall f xs T).tasks.length = xs.length := by simp [applyVectorCall]
  have hst : s.started = xs.length := by
    by_contra hne
    have := (hdone s.started (by simp [applyVectorCall]; omega)).1
    omega
  refine ⟨hst, fun i => ?_⟩
  by_cases hi : i < s.started
  · have := (hdone i (by simp [applyVectorCall]; omega)).2.1
    simp [PoolState.running, this]
  · simp [PoolState.running, hi]

/-- Two calls: the first throws, the second writes 1 to location 7. -/
def throwThenWrite : Bool → PoolTask Nat Nat String Unit
  | true => ⟨[], .error "boom"⟩
  | false => ⟨[(7, 1)], .ok ()⟩

/-- C74 is false of the code when a call throws: the exception leaves `apply` while another call is
still executing, and that call writes to the caller's memory afterwards. -/
theorem C74_exception_leaves_tasks_running :
    ∃ s s' : PoolState Nat Nat String Unit,
      PoolReach (applyVectorCall throwThenWrite [true, false] 2) (fun _ => 0) s ∧
      s.outcome = some (.error "boom") ∧ s.running 1 = true ∧
      PoolStep (applyVectorCall throwThenWrite [true, false] 2) s s' ∧ s.mem 7 = 0 ∧ s'.mem 7 = 1 := by
  let c := applyVectorCall throwThenWrite [true, false] 2
  let r0 : PoolReach c (fun _ => 0) _ := .init
  let r1 := r0.step (.enqueue (by decide))
  let r2 := r1.step (.enqueue (by decide))
  let r3 := r2.step (.start (by decide) (by decide))
  let r4 := r3.step (.start (by decide) (by decide))
  let r5 := r4.step (.finish 0 (throwThenWrite true) rfl rfl rfl)
  let r6 := r5.step (.getThrow 0 [1] "boom" rfl rfl rfl rfl)
  exact ⟨_, _, r6, rfl, rfl, .write 1 (7, 1) [] rfl rfl, rfl, rfl⟩

/-! ## Non-vacuity -/

/-- A schedule in which the second task finishes first; the result is in input order. -/
example : ∃ s : PoolState Nat Nat String Nat,
    PoolReach (applyVectorCall (fun x : Nat => ⟨[(x, x)], .ok (10 * x)⟩) [1, 2] 2) (fun _ => 0) s ∧
    s.outcome = some (.ok [10, 20]) ∧ s.mem 1 = 1 ∧ s.mem 2 = 2 := by
  let c : PoolCall Nat Nat String Nat :=
    applyVectorCall (fun x : Nat => ⟨[(x, x)], .ok (10 * x)⟩) [1, 2] 2
  let r0 : PoolReach c (fun _ => 0) _ := .init
  let r1 := r0.step (.enqueue (by decide))
  let r2 := r1.step (.enqueue (by decide))
  let r3 := r2.step (.start (by decide) (by decide))
  let r4 := r3.step (.start (by decide) (by decide))
  let r5 := r4.step (.write 1 (2, 2) [] rfl rfl)
  let r6 := r5.step (.finish 1 ⟨[(2, 2)], .ok 20⟩ rfl rfl rfl)
  let r7 := r6.step (.write 0 (1, 1) [] rfl rfl)
  let r8 := r7.step (.finish 0 ⟨[(1, 1)], .ok 10⟩ rfl rfl rfl)
  let r9 := r8.step (.get 0 [1] 10 rfl rfl rfl rfl)
  let r10 := r9.step (.get 1 [] 20 rfl rfl rfl rfl)
  let r11 := r10.step (.ret rfl rfl rfl)
  exact ⟨_, r11, rfl, rfl, rfl⟩

/-- Both tasks fail, the second one first: the exception of the first input is thrown. -/
example : ∃ s : PoolState Nat Nat String Nat,
    PoolReach (applyMapCall (fun (_ : Nat) (x : String) => ⟨[], .error x⟩)
      ([(1, "a"), (2, "b")] : SMap Nat String) 2) (fun _ => 0) s ∧
    s.outcome = some (.error "a") := by
  let c : PoolCall Nat Nat String Nat := applyMapCall (fun (_ : Nat) (x : String) => ⟨[], .error x⟩)
      ([(1, "a"), (2, "b")] : SMap Nat String) 2
  let r0 : PoolReach c (fun _ => 0) _ := .init
  let r1 := r0.step (.enqueue (by decide))
  let r2 := r1.step (.enqueue (by decide))
  let r3 := r2.step (.start (by decide) (by decide))
  let r4 := r3.step (.start (by decide) (by decide))
  let r5 := r4.step (.finish 1 ⟨[], .error "b"⟩ rfl rfl rfl)
  let r6 := r5.step (.finish 0 ⟨[], .error "a"⟩ rfl rfl rfl)
  let r7 := r6.step (.getThrow 0 [1] "a" rfl rfl rfl rfl)
  exact ⟨_, r7, rfl⟩

end Albatross

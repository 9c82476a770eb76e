import Verif.SamplerCsvProps
import Verif.SimpleModelsProps
import Verif.WholeModelProps
import Verif.ObjectsProps
import Verif.PrettyParamsProps
import Verif.CovMatrixProps
import Verif.CrossValidationProps

/-! # What is refused and what is reported

Statements about failures, texts and names which the theorems of the other files leave open. -/

namespace Albatross

/-! ## Partners of walkers -/

/-- **C46**: also for ensembles with walkers of infinite or undefined probability, which builds without assertions accept,
the partner of a walker is one of the other half of finite probability. -/
theorem C46_partner (M : Nat) (u : UniformInt) (ur : UniformReal) (objective : List Dbl → Dbl) (a : ℝ) (nDim : Nat)
    (complement : List Nat) (cur next : List SamplerState) (raw rest : List Nat) (k : Nat)
    (hd : ∀ s ∈ cur, s.params.length = nDim)
    (h : moveWalker M u ur objective a nDim complement (cur, raw) k = .ok (next, rest)) :
    ∃ j ∈ complement, ∃ x xj, cur[k]? = some x ∧ cur[j]? = some xj ∧ (∃ v, xj.logProb = .fin v) ∧
      ∃ p r, 0 ≤ p ∧ p < 1 ∧ 0 ≤ r ∧ r < 1 ∧ next = cur.set k (stretchResult objective a x xj p r) := by
  have key : ∀ (raw rest : List Nat) (j : Nat), pickFinite M u complement cur raw = .ok (j, rest) →
      ∃ s v, cur[j]? = some s ∧ s.logProb = .fin v := by
    intro raw
    induction raw with
    | nil => intro rest j h; cases h
    | cons r raw ih =>
      intro rest j h
      simp only [pickFinite, except_bind_eq_ok, vecGet_ok] at h
      obtain ⟨j', -, s, hs, h⟩ := h
      split at h
      · rename_i hf
        cases h
        cases hv : s.logProb with
        | fin v => exact ⟨s, v, hs, hv⟩
        | _ => rw [hv] at hf; cases hf
      · exact ih _ _ h
  have h0 := h
  simp only [moveWalker, except_bind_eq_ok, vecGet_ok] at h
  obtain ⟨x, hx, ⟨j, raw1⟩, hj, ⟨r1, raw2⟩, -, xj, hxj, y, hy, ⟨r2, raw3⟩, -, h⟩ := h
  obtain ⟨s, v, hs, hv⟩ := key _ _ _ hj
  obtain rfl : xj = s := by rw [hxj] at hs; exact Option.some.inj hs
  have hxl := hd x (List.mem_of_getElem? hx)
  have hxjl := hd xj (List.mem_of_getElem? hxj)
  rw [proposeParams_ok hxl hxjl] at hy
  refine ⟨j, (pickFinite_ok hj).1, x, xj, hx, hxj, ⟨v, hv⟩, ur.draw r1, ur.draw r2, ur.ge _, ur.lt _, ur.ge _, ur.lt _, ?_⟩
  unfold stretchResult
  simp only [hxl]
  change y = List.zipWith (stretchCoord (stretchFactor a (ur.draw r1))) x.params xj.params at hy
  rw [← hy]
  split at h <;> rename_i hc <;> rw [except_bind_eq_ok] at h <;> obtain ⟨w, hw, h⟩ := h <;> rw [vecSet_ok] at hw <;> cases h
  · exact hw.2.trans (congrArg _ (if_pos hc).symm)
  · exact hw.2.trans (congrArg _ (if_neg hc).symm)

/-- **C46**: if there is none, the search for it never ends. -/
theorem C46_no_partner (M : Nat) (u : UniformInt) (ur : UniformReal) (objective : List Dbl → Dbl) (a : ℝ) (nDim : Nat)
    (complement : List Nat) (cur : List SamplerState) (raw : List Nat) (k : Nat) (hk : k < cur.length)
    (hM : complement.length < M) (hne : complement ≠ [])
    (hinf : ∀ j ∈ complement, ∃ s, cur[j]? = some s ∧ ∀ v, s.logProb ≠ .fin v) :
    moveWalker M u ur objective a nDim complement (cur, raw) k = .error .diverges := by
  have hpos := List.length_pos_iff.2 hne
  have hsz : sizeSub M complement.length 1 = complement.length - 1 := by
    unfold sizeSub
    rw [show complement.length + M - 1 = (complement.length - 1) + M by omega, Nat.add_mod_right,
      Nat.mod_eq_of_lt (by omega)]
  have key : pickFinite M u complement cur raw = .error .diverges := by
    induction raw with
    | nil => rfl
    | cons r raw ih =>
      have hlt : u.draw 0 (complement.length - 1) r < complement.length := by
        have := u.le 0 (complement.length - 1) r (by omega)
        omega
      obtain ⟨s, hs, hv⟩ := hinf _ (List.getElem_mem hlt)
      rw [pickFinite, hsz, vecGet_lt hlt, except_ok_bind, vecGet_ok.2 hs, except_ok_bind]
      have : s.logProb.isFinite = false := by
        cases h : s.logProb with
        | fin v => exact absurd h (hv v)
        | _ => rfl
      rw [this, if_neg (by simp), ih]
  unfold moveWalker
  simp only
  rw [vecGet_lt hk, except_ok_bind, key]
  rfl

example : ∀ j ∈ [1], ∃ s, [(⟨[], .fin 0, true⟩ : SamplerState), ⟨[], .ninf, true⟩][j]? = some s ∧ ∀ v, s.logProb ≠ .fin v := by
  intro j hj
  obtain rfl : j = 1 := by simpa using hj
  exact ⟨_, rfl, fun v => by simp⟩

/-! ## Files that are not restart files -/

/-- **C48**: a debug build reads only files whose first line starts with the three columns of the callback and all of whose
other lines have as many values as the first one has names. -/
theorem C48_refuses (text : List Char) (out : List (SMap String Dbl)) (h : initialParamsFromCsv .debug text = .ok out) :
    ∃ header lines names, splitString '\n' text = header :: lines ∧
      splitString ',' header = ["iteration".toList, "log_probability".toList, "ensemble_index".toList] ++ names ∧
      ∀ line ∈ lines, (splitString ',' line).length = 3 + names.length := by
  have hassert : ∀ c : Bool, ∀ u : Unit, albatrossAssert .debug c = .ok u → c = true := by
    intro c u h
    cases c with
    | true => rfl
    | false => cases h
  unfold initialParamsFromCsv at h
  simp only [except_bind_eq_ok] at h
  obtain ⟨u0, h0, c0, g0, u1, h1, c1, g1, u2, h2, c2, g2, u3, h3, r, hr, -⟩ := h
  cases hl : splitString '\n' text with
  | nil => rw [hl] at h0; exact absurd (hassert _ _ h0) (by simp)
  | cons header lines =>
    rw [hl] at g0 g1 g2 hr
    simp only [List.headD_cons, List.tail_cons] at g0 g1 g2 hr
    have e0 := eq_of_beq (hassert _ _ h1)
    have e1 := eq_of_beq (hassert _ _ h2)
    have e2 := eq_of_beq (hassert _ _ h3)
    subst e0 e1 e2
    rw [vecGet_ok] at g0 g1 g2
    obtain ⟨names, hn⟩ : ∃ names, splitString ',' header =
        ["iteration".toList, "log_probability".toList, "ensemble_index".toList] ++ names := by
      match hs : splitString ',' header, g0, g1, g2 with
      | a :: b :: c :: names, g0, g1, g2 =>
        simp only [List.getElem?_cons_zero, List.getElem?_cons_succ, Option.some.injEq] at g0 g1 g2
        exact ⟨names, by rw [g0, g1, g2]; rfl⟩
    refine ⟨header, lines, names, rfl, hn, ?_⟩
    have key : ∀ (lines : List (List Char)) (st st' : Dbl × List (SMap String Dbl)),
        lines.foldlM (readCsvLine .debug (splitString ',' header)) st = .ok st' →
        ∀ line ∈ lines, (splitString ',' line).length = (splitString ',' header).length := by
      intro lines
      induction lines with
      | nil => intro _ _ _ line hl; cases hl
      | cons l ls ih =>
        intro st st' h line hm
        rw [List.foldlM_cons, except_bind_eq_ok] at h
        obtain ⟨st1, hst, h⟩ := h
        rcases List.mem_cons.1 hm with rfl | hm
        · simp only [readCsvLine, except_bind_eq_ok] at hst
          obtain ⟨v0, -, u, hu, -⟩ := hst
          have := eq_of_beq (hassert _ _ hu)
          simpa [parseLine] using this
        · exact ih _ _ h line hm
    intro line hm
    rw [key lines _ _ hr line hm, hn, List.length_append]
    rfl

example : (["iteration", "log_probability", "ensemble_index", "sigma"].map String.toList) =
    ["iteration".toList, "log_probability".toList, "ensemble_index".toList] ++ ["sigma".toList] := rfl

/-! ## Features of different sizes -/

/-- **C62**: features of different sizes stop a debug build. -/
theorem C62_ragged [DecidableEq ℝ] (factor : (A : DynMat) → ColPivQr A.rows A.cols) (features : List (List ℝ))
    (mean variance : List ℝ) (h : ∃ f ∈ features, ∃ g ∈ features, f.length ≠ g.length) :
    leastSquaresFit .debug factor features mean variance = .error .assertFail := by
  have key : ∀ (n : Nat) (fs : List (List ℝ)), (∃ f ∈ fs, f.length ≠ n) →
      fs.forM (fun f => eigenAssert .debug (decide (f.length = n))) = .error .assertFail := by
    intro n fs
    induction fs with
    | nil => rintro ⟨f, hf, -⟩; cases hf
    | cons a t ih =>
      rintro ⟨f, hf, hne⟩
      rw [List.forM_eq_forM, List.forM_cons]
      by_cases ha : a.length = n
      · rw [decide_eq_true ha, eigenAssert_true, except_ok_bind]
        refine ih ?_
        rcases List.mem_cons.1 hf with rfl | hf
        · exact absurd ha hne
        · exact ⟨f, hf, hne⟩
      · rw [decide_eq_false ha]
        rfl
  unfold leastSquaresFit
  cases allSameValue variance with
  | false => rfl
  | true =>
    rw [albatrossAssert_true, except_ok_bind]
    obtain ⟨f, hf, g, hg, hne⟩ := h
    cases features with
    | nil => cases hf
    | cons a t =>
      unfold designMatrix
      rw [show vecGet (a :: t) 0 = .ok a from rfl, except_ok_bind, key]
      · rfl
      · by_cases hfa : f.length = a.length
        · exact ⟨g, hg, fun e => hne (hfa.trans e.symm)⟩
        · exact ⟨f, hf, hfa⟩

example : ∃ f ∈ [[(1 : ℝ)], [1, 2]], ∃ g ∈ [[(1 : ℝ)], [1, 2]], f.length ≠ g.length := ⟨[1], by simp, [1, 2], by simp, by simp⟩

/-! ## The parameters a null model does report -/

/-- **C63**: no parameter can be set on a null model either, whatever it was constructed from: a build without assertions
ignores it. -/
theorem C63_set_ignored (store : ParameterStore) (name : String) (p : Parameter) :
    (NullModel.ofStore store).setParam .ndebug name p = .ok (NullModel.ofStore store) := rfl

/-- **C63**: a parameter it would report could be set, and would then be reported with its new value. -/
theorem C63_set_again (b : Build) (m : NullModel) (hw : SMap.WF m.inherited) (name : String) (p q : Parameter)
    (h : m.inherited.find? name = some p) :
    m.getParams.find? name = some p ∧ ∃ m', m.setParam b name q = .ok m' ∧ m'.own = m.own ∧
      m'.getParams.find? name = some q ∧ ∀ other, other ≠ name → m'.getParams.find? other = m.getParams.find? other := by
  refine ⟨h, { m with inherited := SMap.put m.inherited name q }, ?_, rfl, ?_, fun other ho => ?_⟩
  · simp only [NullModel.setParam, setParam, modifyParam, h, except_pure, except_ok_bind]
  · simp only [NullModel.getParams, SMap.find?_put hw, if_pos]
  · simp only [NullModel.getParams, SMap.find?_put hw, if_neg ho]

example : SMap.find? ([("sigma", ⟨.fin 1, .uninformative⟩)] : ParameterStore) "sigma" =
    some (⟨.fin 1, .uninformative⟩ : Parameter) := by
  simp [SMap.find?]

/-! ## The report of the tuner -/

/-- **C110**: the last part of what a run prints names the smallest value to six significant digits, why the run stopped and
the chosen parameters; the value can be read off. -/
theorem C110_report (minf : Dbl) (code : Int) (output : ParameterStore) :
    ∃ value, tunedText minf code output = "==================\nTUNED PARAMS\nminimum: ".toList ++ value ++
      "\nnlopt termination code: ".toList ++ resultText code ++ "\n==================\n".toList ++ prettyParams output ++
      "\n".toList ∧ '\n' ∉ value ∧ NearRel (5 / 10 ^ 6) minf (readDecimal value) ∧
      (HasDigits 6 minf → readDecimal value = minf) := by
  refine ⟨defaultText minf, ?_, fun h => ?_, defaultText_read minf⟩
  · rw [tunedText]
    simp only [List.append_assoc]
    rfl
  · exact (defaultText_chars minf _ h).ne.2.1 rfl

/-! ## Parameters at which the objective fails -/

/-- **C115**: at a store with a name the model does not have, where a debug build stops, the objective of the model has no
value; at those of the tuner it has one (`nllObjective_value`). -/
theorem C115_objective_fails {k : Nat} (b : Build) (mt : MeanType) (ct : ModelCov)
    (ldlt : Matrix (Fin k) (Fin k) ℝ → Ldlt (Fin k)) (train : Fin k → ℝ) (t : Marginal (Fin k)) (model : Handler)
    (params : ParameterStore) (f : Fault) (h : Handler.setAll b model params = .error f) :
    nllObjective b mt ct ldlt train t model params = .nan := by
  rw [nllObjective, modelObjective, h]
  rfl

/-! ## Text archives -/

/-- **C92**: a text archive finds a value by its name, wherever it is, and goes on behind it. -/
theorem C92_by_name (name : String) (f : Field) (before after pre post : List (String × Field))
    (hall : before ++ after = pre ++ (name, f) :: post) (hpre : ∀ m ∈ pre, m.1 ≠ name) (hnext : ∀ m ∈ after.head?, m.1 ≠ name) :
    Reader.next true name ⟨before, after⟩ = .ok (f, ⟨pre ++ [(name, f)], post⟩) := by
  have key : ∀ pre : List (String × Field), (∀ m ∈ pre, m.1 ≠ name) →
      splitAtName name (pre ++ (name, f) :: post) = some (pre, f, post) := by
    intro pre
    induction pre with
    | nil => intro _; simp [splitAtName]
    | cons m pre ih =>
      intro h
      rw [List.cons_append, splitAtName, if_neg (h m (by simp)), ih fun m hm => h m (by simp [hm])]
      rfl
  cases after with
  | nil =>
    rw [List.append_nil] at hall
    simp only [Reader.next, if_true, hall, key pre hpre]
  | cons m ms =>
    have hm : m.1 ≠ name := hnext m (by simp)
    simp only [Reader.next, hm, ne_eq, not_false_eq_true, and_self, if_true, hall, key pre hpre]

theorem next_by_name {all : List (String × Field)} (hnd : (all.map Prod.fst).Nodup) (name : String) (r : Reader)
    (hr : r.before ++ r.after = all) :
    (∀ f, (name, f) ∈ all → ∃ r', r.next true name = .ok (f, r') ∧ r'.before ++ r'.after = all) ∧
    ((∀ f, (name, f) ∉ all) → r.next true name = .error .thrown) := by
  obtain ⟨before, after⟩ := r
  subst hr
  constructor
  · intro f hf
    cases after with
    | nil =>
      obtain ⟨pre, post, hall⟩ := List.append_of_mem hf
      refine ⟨_, C92_by_name name f before [] pre post hall (fun m hm e => ?_) (by simp), by simp [hall]⟩
      dsimp only at hnd
      rw [hall, List.map_append, List.map_cons, List.nodup_append] at hnd
      exact hnd.2.2 _ (List.mem_map_of_mem hm) _ (by simp) e
    | cons m ms =>
      by_cases hm : m.1 = name
      · obtain ⟨n, g⟩ := m
        subst hm
        have hfg : f = g := by
          have h1 := List.inj_on_of_nodup_map hnd hf (show (n, g) ∈ before ++ (n, g) :: ms by simp) rfl
          exact (Prod.mk.inj h1).2
        subst hfg
        exact ⟨_, next_cons true n f before ms, by simp⟩
      · obtain ⟨pre, post, hall⟩ := List.append_of_mem hf
        refine ⟨_, C92_by_name name f before (m :: ms) pre post hall (fun m hm e => ?_) (by simpa using hm), by simp [hall]⟩
        dsimp only at hnd
        rw [hall, List.map_append, List.map_cons, List.nodup_append] at hnd
        exact hnd.2.2 _ (List.mem_map_of_mem hm) _ (by simp) e
  · intro hno
    have key : ∀ l : List (String × Field), (∀ m ∈ l, m.1 ≠ name) → splitAtName name l = none := by
      intro l
      induction l with
      | nil => intro _; rfl
      | cons m l ih =>
        intro h
        rw [splitAtName, if_neg (h m (by simp)), ih fun m hm => h m (by simp [hm])]
        rfl
    have hall : ∀ m ∈ before ++ after, m.1 ≠ name := by
      rintro ⟨n, f⟩ hm rfl
      exact hno f hm
    cases after with
    | nil => simp only [Reader.next, if_true, key before fun m hm => hall m (by simpa using hm)]
    | cons m ms =>
      have hm : m.1 ≠ name := hall m (by simp)
      simp only [Reader.next, hm, ne_eq, not_false_eq_true, and_self, if_true, key _ hall]

/-- **C92**: an object is loaded from a text archive the same whatever the order of its members in the archive. -/
theorem C92_any_order {σ : Type} (io : Io) (hio : io.text = true) (steps : List (Step σ)) (old : σ)
    (ms ms' : List (String × Field)) (hnd : (ms.map Prod.fst).Nodup) (hp : ms.Perm ms') :
    (objectSerial io steps).load old (.node ms) = (objectSerial io steps).load old (.node ms') := by
  have hnd' : (ms'.map Prod.fst).Nodup := (hp.map _).nodup hnd
  have key : ∀ (steps : List (Step σ)) (s : σ) (r r' : Reader), r.before ++ r.after = ms → r'.before ++ r'.after = ms' →
      (loadSteps true steps s r).map Prod.fst = (loadSteps true steps s r').map Prod.fst := by
    intro steps
    induction steps with
    | nil => intro s r r' _ _; rfl
    | cons st steps ih =>
      intro s r r' hr hr'
      cases st with
      | assign f => exact ih _ _ _ hr hr'
      | field m =>
        rw [loadSteps, loadSteps]
        by_cases hf : ∃ f, (m.name, f) ∈ ms
        · obtain ⟨f, hf⟩ := hf
          obtain ⟨q, h1, h2⟩ := (next_by_name hnd m.name r hr).1 f hf
          obtain ⟨q', h1', h2'⟩ := (next_by_name hnd' m.name r' hr').1 f (hp.mem_iff.1 hf)
          rw [h1, h1']
          simp only [except_ok_bind]
          cases m.serial.load (m.get s) f with
          | error e => rfl
          | ok a =>
            simp only [except_ok_bind]
            exact ih _ _ _ h2 h2'
        · push Not at hf
          rw [(next_by_name hnd m.name r hr).2 hf, (next_by_name hnd' m.name r' hr').2 fun f h => hf f (hp.mem_iff.2 h)]
  have := key steps old (Reader.start ms) (Reader.start ms') rfl rfl
  simp only [objectSerial, membersOf, except_ok_bind, hio]
  revert this
  cases loadSteps true steps old (Reader.start ms) <;> cases loadSteps true steps old (Reader.start ms') <;>
    intro this <;> simp_all [Except.map]

example : ([("value", Field.nat 1), ("prior", .nat 2)].map Prod.fst).Nodup ∧
    [("value", Field.nat 1), ("prior", .nat 2)].Perm [("prior", .nat 2), ("value", .nat 1)] :=
  ⟨by decide, List.Perm.swap _ _ _⟩

/-- **C92**: something of another kind in the place of a number, a string or an object makes a text archive throw; a binary
archive cannot tell. -/
theorem C92_wrong_kind (io : Io) (f : Field) :
    let fault : Fault := if io.text = true then .thrown else .ub
    ((∀ n, f ≠ .int n) → ∀ old, (intSerial io).load old f = .error fault) ∧
    ((∀ n, f ≠ .nat n) → ∀ old, (natSerial io).load old f = .error fault) ∧
    ((∀ x, f ≠ .dbl x) → ∀ old, (dblSerial io).load old f = .error fault) ∧
    ((∀ x, f ≠ .flag x) → ∀ old, (flagSerial io).load old f = .error fault) ∧
    ((∀ x, f ≠ .name x) → ∀ old, (stringSerial io).load old f = .error fault) ∧
    ((∀ ms, f ≠ .node ms) → ∀ (σ : Type) (steps : List (Step σ)) (old : σ),
      (objectSerial io steps).load old f = .error fault) := by
  intro fault
  refine ⟨fun h old => ?_, fun h old => ?_, fun h old => ?_, fun h old => ?_, fun h old => ?_, fun h σ steps old => ?_⟩ <;>
    cases f <;> first | rfl | exact absurd rfl (h _)

/-- **C92**: the elements of a vector are named value0, value1 and so on. -/
theorem C92_element_names {α : Type} (io : Io) (c : Serial α) (init : α) (xs : List α) (f : Field) (ys : List α)
    (h : (vectorSerial io c init).save xs = .ok (f, ys)) :
    ∃ ms, f = .node ms ∧ ms.map Prod.fst = (List.range xs.length).map fun i => "value" ++ toString i := by
  have key : ∀ (xs : List α) (k : Nat) (ms : List (String × Field)) (ys : List α), saveElements c k xs = .ok (ms, ys) →
      ms.map Prod.fst = (List.range' k xs.length).map fun i => "value" ++ toString i := by
    intro xs
    induction xs with
    | nil =>
      intro k ms ys h
      cases h
      rfl
    | cons x xs ih =>
      intro k ms ys h
      simp only [saveElements, except_bind_eq_ok, except_pure] at h
      obtain ⟨p, -, q, hq, h⟩ := h
      cases h
      rw [List.map_cons, ih _ _ _ hq, List.length_cons, List.range'_succ, List.map_cons]
      rfl
  simp only [vectorSerial, except_bind_eq_ok, except_pure] at h
  obtain ⟨p, hp, h⟩ := h
  cases h
  exact ⟨_, rfl, by rw [key _ _ _ _ hp, List.range_eq_range']⟩

/-! ## Covariance matrices -/

/-- **C18**, **C19**: tasks whose cells are outside the features make the pooled call fail; the failure is not lost
among the other tasks. -/
theorem C19_outside {X Y R B : Type} (caller : X → Y → R) (xs : List X) (ys : List Y) (cells : B → List (Nat × Nat))
    (blocks : List B) (T : Nat) (b : B) (hb : b ∈ blocks) (rc : Nat × Nat) (hrc : rc ∈ cells b)
    (hout : xs.length ≤ rc.1 ∨ ys.length ≤ rc.2)
    (m : Nat × Nat → R) (s : PoolState (Nat × Nat) R Fault Unit)
    (h : PoolReach (applyVectorCall (fun b => cellTask (cellWrites caller xs ys (cells b))) blocks T) m s)
    (r : Except Fault (List Unit)) (ho : s.outcome = some r) : r = .error .ub := by
  have hcell : ∀ (cs : List (Nat × Nat)) (e : Fault), cellWrites caller xs ys cs = .error e → e = .ub := by
    intro cs
    induction cs with
    | nil => intro e h; cases h
    | cons c cs ih =>
      intro e h
      unfold cellWrites at h ih
      rw [List.mapM_cons] at h
      by_cases h1 : c.1 < xs.length
      · by_cases h2 : c.2 < ys.length
        · simp only [vecGet_lt h1, vecGet_lt h2, except_ok_bind, except_pure] at h
          cases hr : cs.mapM (fun rc => do
            let x ← vecGet xs rc.1
            let y ← vecGet ys rc.2
            Except.ok (rc, caller x y) : Nat × Nat → Outcome ((Nat × Nat) × R)) with
          | ok ws => rw [hr] at h; cases h
          | error e' =>
            rw [hr] at h
            cases h
            exact ih _ hr
        · have : vecGet ys c.2 = .error .ub := by unfold vecGet; rw [List.getElem?_eq_none (not_lt.1 h2)]
          simp only [vecGet_lt h1, this, except_ok_bind] at h
          cases h
          rfl
      · have : vecGet xs c.1 = .error .ub := by unfold vecGet; rw [List.getElem?_eq_none (not_lt.1 h1)]
        simp only [this] at h
        cases h
        rfl
  have hbad : ∀ cs : List (Nat × Nat), rc ∈ cs → cellWrites caller xs ys cs = .error .ub := by
    intro cs hmem
    cases hr : cellWrites caller xs ys cs with
    | error e => rw [hcell cs e hr]
    | ok ws =>
      exfalso
      unfold cellWrites at hr
      have : ∀ (cs : List (Nat × Nat)) ws, (cs.mapM fun rc => do
            let x ← vecGet xs rc.1
            let y ← vecGet ys rc.2
            pure (rc, caller x y) : Outcome (List ((Nat × Nat) × R))) = .ok ws → rc ∈ cs → False := by
        intro cs
        induction cs with
        | nil => intro ws _ hm; cases hm
        | cons c cs ih =>
          intro ws h hm
          rw [List.mapM_cons] at h
          simp only [except_bind_eq_ok, vecGet_ok] at h
          obtain ⟨w, ⟨x, hx, y, hy, -⟩, ws', hws, -⟩ := h
          rcases List.mem_cons.1 hm with rfl | hm
          · rcases hout with h | h
            · rw [List.getElem?_eq_none h] at hx; cases hx
            · rw [List.getElem?_eq_none h] at hy; cases hy
          · exact ih _ hws hm
      exact this cs ws hr hmem
  rw [C17_apply_serial _ blocks T m s h r ho, applySerial]
  clear h ho
  induction blocks with
  | nil => cases hb
  | cons a blocks ih =>
    rw [List.mapM_cons]
    rcases List.mem_cons.1 hb with rfl | hb
    · rw [hbad _ hrc]
      rfl
    · cases ha : cellWrites caller xs ys (cells a) with
      | error e =>
        rw [hcell _ _ ha]
        rfl
      | ok ws =>
        simp only [cellTask, except_ok_bind]
        have := ih hb
        simp only [cellTask] at this
        rw [this]
        rfl

/-- Such a task: one block of one column too many. -/
example : ∃ (b : Nat × Nat) (rc : Nat × Nat), b ∈ [(0, 2)] ∧
    rc ∈ ((List.range' b.1 (b.2 - b.1)).flatMap fun col => (List.range (col + 1)).map fun row => (row, col)) ∧
    ([5] : List Nat).length ≤ rc.1 := ⟨(0, 2), (1, 1), by simp, by decide, by decide⟩

/-! ## Kinds of cross validated predictions -/

/-- **C98**: a prediction kept as a map converts to the grouping of the same predictions; nothing else converts. -/
theorem C98_conversions (s t : CvGetType) :
    s.converts t = true ↔ s = t ∨ (s = .meanMap ∧ t = .meanGrouped) ∨ (s = .marginalMap ∧ t = .marginalGrouped) ∨
      (s = .jointMap ∧ t = .jointGrouped) := by
  cases s <;> cases t <;> simp [CvGetType.converts]

end Albatross

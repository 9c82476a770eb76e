import Verif.TuneRun
import Verif.TuneProps
import Verif.UtilsProps

/-! # C110: whole runs of the tuner -/

namespace Albatross

/-! ## Specification -/

/-- The process keeps to what NLopt promises: vectors of the dimension without NaN, room for a gradient of the dimension
or none, and no result code that stands for a failure; whatever the answers are. -/
def NloptRun.Regular (n : Nat) : NloptRun → Prop
  | .finish x _ code => x.length = n ∧ (∀ v ∈ x, v ≠ .nan) ∧ 0 ≤ code
  | .ask x grad next => x.length = n ∧ (∀ v ∈ x, v ≠ .nan) ∧ (grad = [] ∨ grad.length = n) ∧
      ∀ m g, (next m g).Regular n

/-- The process finally reports one of the vectors at which it asked, with a value that is the smallest it was told. -/
def NloptRun.ReportsBest : NloptRun → List (List Dbl × Dbl) → Prop
  | .finish x minf _, seen => (x, minf) ∈ seen ∧ ∀ q ∈ seen, ¬ q.2 < minf
  | .ask x _ next, seen => ∀ m g, (next m g).ReportsBest (seen ++ [(x, m)])

/-- `p` is `initial` with other values for the parameters that are not fixed, all within the bounds of their priors. -/
def TunedFrom (initial p : ParameterStore) : Prop :=
  List.Forall₂ (fun a c => a.1 = c.1 ∧ a.2.prior = c.2.prior ∧ (a.2.isFixed = true → c.2.value = a.2.value)) initial p ∧
  ∀ kv ∈ p, kv.2.prior.lower ≤ kv.2.value ∧ kv.2.value ≤ kv.2.prior.upper

/-! ## Lemmas -/

theorem allValid_of_paramsAreValid {ps : ParameterStore} (h : paramsAreValid ps = true) :
    ∀ kv ∈ ps, kv.2.prior.lower ≤ kv.2.value ∧ kv.2.value ≤ kv.2.prior.upper := by
  induction ps with
  | nil => simp
  | cons kv ps ih =>
    rw [paramsAreValid] at h
    split_ifs at h with hv
    intro kv' hkv'
    rcases List.mem_cons.1 hkv' with rfl | hm
    · simpa [Parameter.isValid] using hv
    · exact ih h kv' hm

theorem toScale_exp_ne_nan {p : Parameter} {v : Dbl} (h : v ≠ .nan) : toScale Dbl.exp p v ≠ .nan := by
  unfold toScale
  split_ifs
  · exact exp_ne_nan h
  · exact h

theorem SameShape.noNan {a c : ParameterStore} (h : SameShape a c) (hn : NoNan a) (hv : ∀ kv ∈ c, kv.2.value ≠ .nan) :
    NoNan c := by
  induction h with
  | nil => exact hn
  | @cons p q a c hpq _ ih =>
    intro kv hkv
    rcases List.mem_cons.1 hkv with rfl | hm
    · obtain ⟨-, n2, n3⟩ := hn p (by simp)
      rw [← hpq.2.1]
      exact ⟨hv kv (by simp), n2, n3⟩
    · exact ih (fun x hx => hn x (by simp [hx])) (fun x hx => hv x (by simp [hx])) kv hm

theorem assigned_ne_nan {ps l : ParameterStore} {xs : List Dbl} (hn : NoNan ps) (hx : ∀ v ∈ xs, v ≠ .nan)
    (h : assigned Dbl.exp true ps xs = some l) : ∀ kv ∈ l, kv.2.value ≠ .nan := by
  induction ps generalizing l xs with
  | nil => cases h; simp
  | cons p ps ih =>
    have hn' : NoNan ps := fun x hx => hn x (by simp [hx])
    unfold assigned at h
    split_ifs at h with hf
    · obtain ⟨l', hl, rfl⟩ := Option.map_eq_some_iff.1 h
      intro kv hkv
      rcases List.mem_cons.1 hkv with rfl | hm
      · exact (hn kv (by simp)).1
      · exact ih hn' hx hl kv hm
    · cases xs with
      | nil => cases h
      | cons v xs =>
        obtain ⟨l', hl, rfl⟩ := Option.map_eq_some_iff.1 h
        intro kv hkv
        rcases List.mem_cons.1 hkv with rfl | hm
        · obtain ⟨-, n2, n3⟩ := hn p (by simp)
          have := toScale_exp_ne_nan (p := p.2) (hx v (by simp))
          simp only [tunedValue, if_true]
          unfold ensureWithinBounds
          split_ifs
          · exact n2
          · exact n3
          · exact this
        · exact ih hn' (fun w hw => hx w (by simp [hw])) hl kv hm

/-- The facts about a store set from a vector without NaN. -/
structure GoodSet (initial p : ParameterStore) : Prop where
  wf : SMap.WF p
  shape : SameShape initial p
  inside : NotOutside p
  noNan : NoNan p

theorem GoodSet.tuned {initial p : ParameterStore} (h : GoodSet initial p) : TunedFrom initial p :=
  ⟨h.shape, allValid_of_paramsAreValid (valid_of_notOutside h.inside h.noNan)⟩

/-- The conditions on the initial parameters. -/
structure Tunable (ps : ParameterStore) : Prop where
  wf : SMap.WF ps
  ordered : OrderedBounds ps
  inside : NotOutside ps
  noNan : NoNan ps
  few : (tunable ps).length < 2 ^ 32

theorem set_good (b : Build) {ps : ParameterStore} (h : Tunable ps) {x : List Dbl}
    (hlen : x.length = (tunable ps).length) (hx : ∀ v ∈ x, v ≠ .nan) :
    ∃ out, setTunableParamsValues Dbl.exp b ps x true = .ok out ∧ GoodSet ps out := by
  obtain ⟨out, h1, h2, h3, h4⟩ := set_ok Dbl.exp b h.wf h.ordered hlen
  exact ⟨out, h1, h3.wf h.wf, h3, h4, h3.noNan h.noNan (assigned_ne_nan h.noNan hx h2)⟩

theorem getPerturbed_ok (b : Build) {ps : ParameterStore} (hw : SMap.WF ps) (ho : OrderedBounds ps)
    (t : TunableParameters) (ht : t.values.length = (tunable ps).length) {i : Nat} (hi : i < (tunable ps).length)
    (eps : Dbl) : ∃ out, getPerturbed Dbl.exp b ps t i eps = .ok out := by
  unfold getPerturbed
  have hi' : i < t.values.length := by omega
  rw [vecGet_lt hi', except_ok_bind, vecSet_ok.2 ⟨hi', rfl⟩, except_ok_bind]
  obtain ⟨out, h1, -⟩ := set_ok Dbl.exp b hw ho (x := t.values.set i (t.values[i] + eps)) (by simpa using ht)
  exact ⟨out, h1⟩

theorem subGradient_ok (b : Build) (f : ParameterStore → Dbl) {ps : ParameterStore} (hw : SMap.WF ps)
    (ho : OrderedBounds ps) (fVal : Dbl) (t : TunableParameters) (h1 : t.values.length = (tunable ps).length)
    (h2 : t.lowerBounds.length = (tunable ps).length) (h3 : t.upperBounds.length = (tunable ps).length) {i : Nat}
    (hi : i < (tunable ps).length) : ∃ g, computeSingleSubGradient Dbl.exp b f ps fVal t i = .ok g := by
  unfold computeSingleSubGradient
  rw [vecGet_lt (show i < t.upperBounds.length by omega), except_ok_bind,
    vecGet_lt (show i < t.lowerBounds.length by omega), except_ok_bind]
  dsimp only
  obtain ⟨out, ho1⟩ := getPerturbed_ok b hw ho t h1 hi
    (if (t.upperBounds[i] - t.lowerBounds[i]).isFinite then .fin (1 / 10 ^ 8) * (t.upperBounds[i] - t.lowerBounds[i])
      else .fin (1 / 10 ^ 6))
  obtain ⟨out', ho2⟩ := getPerturbed_ok b hw ho t h1 hi
    ((if (t.upperBounds[i] - t.lowerBounds[i]).isFinite then .fin (1 / 10 ^ 8) * (t.upperBounds[i] - t.lowerBounds[i])
      else .fin (1 / 10 ^ 6)) * .fin (-1))
  rw [ho1, except_ok_bind]
  by_cases hv : paramsAreValid out = true
  · simp only [hv, Bool.not_true, Bool.false_eq_true, if_false, except_pure, except_ok_bind,
      vecGet_lt (show i < t.values.length by omega)]
    exact ⟨_, rfl⟩
  · simp only [hv, Bool.not_false, if_true, ho2, except_pure, except_ok_bind,
      vecGet_lt (show i < t.values.length by omega)]
    exact ⟨_, rfl⟩

theorem gradient_ok (b : Build) (f : ParameterStore → Dbl) {ps : ParameterStore} (hw : SMap.WF ps)
    (ho : OrderedBounds ps) (hn : NotOutside ps) (fVal : Dbl) :
    ∃ g, computeGradient Dbl.log Dbl.exp b f ps fVal = .ok g ∧ g.length = (tunable ps).length := by
  unfold computeGradient
  rw [getTunable_ok Dbl.log b hn, except_ok_bind]
  simp only [List.length_map]
  have key : ∀ i < (tunable ps).length, ∃ g, computeSingleSubGradient Dbl.exp b f ps fVal
      { names := (tunable ps).map Prod.fst
        values := (tunable ps).map fun kv => toScale Dbl.log kv.2 kv.2.value
        lowerBounds := (tunable ps).map fun kv => toScale Dbl.log kv.2 kv.2.prior.lower
        upperBounds := (tunable ps).map fun kv => toScale Dbl.log kv.2 kv.2.prior.upper } i = .ok g :=
    fun i hi => subGradient_ok b f hw ho fVal _ (by simp) (by simp) (by simp) hi
  have : Nonempty Dbl := ⟨.nan⟩
  choose! r hr using key
  refine ⟨(List.range (tunable ps).length).map r, ?_, by simp⟩
  rw [mapM_ok_iff, List.map_map]
  exact List.map_congr_left fun i hi => hr i (List.mem_range.1 hi)

theorem setGradient_ok (names : List String) (g grad : List Dbl) (h1 : names.length = g.length)
    (h2 : grad.length = g.length) :
    setGradient names g grad = .ok (g, ['g', 'r', 'a', 'd', 'i', 'e', 'n', 't', '\n'] ++
      (names.zip g).flatMap fun nv => gradientLine nv.1 nv.2) := by
  unfold setGradient
  generalize ['g', 'r', 'a', 'd', 'i', 'e', 'n', 't', '\n'] = start
  have key : ∀ n, n ≤ g.length → (List.range n).foldlM (fun (acc : List Dbl × List Char) i => do
      let name ← vecGet names i
      let v ← vecGet g i
      let grad ← vecSet acc.1 i v
      pure (grad, acc.2 ++ gradientLine name v)) (grad, start) = Except.ok (ε := Fault)
        (g.take n ++ grad.drop n, start ++ ((names.zip g).take n).flatMap fun nv => gradientLine nv.1 nv.2) := by
    intro n
    induction n with
    | zero => intro _; simp [except_pure]
    | succ n ih =>
      intro hn
      have hg : n < g.length := by omega
      have hnm : n < names.length := by omega
      rw [List.range_succ, List.foldlM_append, ih (by omega), except_ok_bind, List.foldlM_cons,
        vecGet_lt hnm, except_ok_bind, vecGet_lt hg, except_ok_bind]
      have hset : vecSet (g.take n ++ grad.drop n) n g[n] = .ok (g.take (n + 1) ++ grad.drop (n + 1)) := by
        refine vecSet_ok.2 ⟨by simp; omega, ?_⟩
        rw [List.take_succ_eq_append_getElem hg, List.drop_eq_getElem_cons (show n < grad.length by omega)]
        have hlen : (g.take n).length = n := by simp; omega
        rw [List.set_append_right _ _ (by omega), hlen, Nat.sub_self, List.set_cons_zero]
        simp only [List.append_assoc, List.singleton_append]
      dsimp only
      rw [hset, except_ok_bind]
      have hz : n < (names.zip g).length := by simp; omega
      rw [List.take_succ_eq_append_getElem hz]
      simp [except_pure, except_ok_bind]
  rw [key _ (le_refl _)]
  have e1 : grad.drop g.length = [] := by rw [← h2]; simp
  have e2 : (names.zip g).take g.length = names.zip g := List.take_of_length_le (by simp)
  rw [e1, e2, List.take_length, List.append_nil]

/-- The text printed at an evaluation. -/
noncomputable def evaluationText (initial store : ParameterStore) (metric : Dbl) (grad : List Dbl) : List Char :=
  (if grad = [] then [] else ['g', 'r', 'a', 'd', 'i', 'e', 'n', 't', '\n'] ++
    (((tunable initial).map Prod.fst).zip grad).flatMap fun nv =>
      [' ', ' '] ++ nv.1.toList ++ [' ', ':', ' '] ++ defaultText nv.2 ++ ['\n']) ++
  ['-', '-', '-', '-', '-', '-', '-', '-', '-', '-', '-', '-', '-', '-', '-', '-', '-', '-', '-', '\n'] ++
  prettyParams store ++ ['\n', 'o', 'b', 'j', 'e', 'c', 't', 'i', 'v', 'e', ':', ' '] ++ defaultText metric ++ ['\n'] ++
  ['-', '-', '-', '-', '-', '-', '-', '-', '-', '-', '-', '-', '-', '-', '-', '-', '-', '-', '-', '\n']

/-- What holds of an evaluation. -/
structure GoodEvaluation (b : Build) (f : ParameterStore → Dbl) (initial : ParameterStore) (e : Evaluation) : Prop where
  set : setTunableParamsValues Dbl.exp b initial e.x true = .ok e.store
  good : GoodSet initial e.store
  metric : e.metric = notNan (f e.store)
  grad : e.grad = [] ∨ computeGradient Dbl.log Dbl.exp b f e.store (f e.store) = .ok e.grad
  text : e.text = evaluationText initial e.store e.metric e.grad

theorem dashes_eq : dashes = ['-', '-', '-', '-', '-', '-', '-', '-', '-', '-', '-', '-', '-', '-', '-', '-', '-', '-',
    '-', '\n'] := rfl

theorem wrappedObjective_ok (b : Build) (f : ParameterStore → Dbl) {initial : ParameterStore} (h : Tunable initial)
    {x grad : List Dbl} (hlen : x.length = (tunable initial).length) (hx : ∀ v ∈ x, v ≠ .nan)
    (hg : grad = [] ∨ grad.length = (tunable initial).length) :
    ∃ e, wrappedObjective Dbl.log Dbl.exp b f initial x grad = .ok e ∧ e.x = x ∧ GoodEvaluation b f initial e := by
  obtain ⟨out, h1, h2⟩ := set_good b h hlen hx
  have hv := valid_of_notOutside h2.inside h2.noNan
  unfold wrappedObjective
  rw [h1, except_ok_bind]
  simp only [hv, Bool.not_true, Bool.false_eq_true, if_false, except_pure, except_ok_bind]
  by_cases hlen0 : 0 < grad.length
  · obtain ⟨g, hg1, hg2⟩ := gradient_ok b f h2.wf (h2.shape.ordered h.ordered) h2.inside (f out)
    have hgl : g.length = (tunable initial).length := hg2.trans h2.shape.tunable_length
    have hgr : grad.length = (tunable initial).length := by
      rcases hg with rfl | hg
      · simp at hlen0
      · exact hg
    have hs := setGradient_ok ((tunable initial).map Prod.fst) g grad (by simp [hgl]) (by omega)
    rw [if_pos hlen0, getTunable_ok Dbl.log b h.inside, except_ok_bind, hg1, except_ok_bind]
    dsimp only
    rw [hs, except_ok_bind]
    refine ⟨_, rfl, rfl, h1, h2, rfl, .inr hg1, ?_⟩
    have hne : g ≠ [] := by rintro rfl; simp at hgl; omega
    simp only [evaluationText, hne, if_false, dashes_eq, gradientLine, List.append_assoc, List.nil_append,
      List.cons_append]
  · have hg0 : grad = [] := by simpa using hlen0
    subst hg0
    rw [if_neg hlen0, except_ok_bind]
    refine ⟨_, rfl, rfl, h1, h2, rfl, .inl rfl, ?_⟩
    simp only [evaluationText, if_true, dashes_eq, List.append_assoc, List.nil_append, List.cons_append]

theorem runNlopt_ok (b : Build) (f : ParameterStore → Dbl) {initial : ParameterStore} (h : Tunable initial)
    (run : NloptRun) (hr : run.Regular (tunable initial).length) (done : List Evaluation)
    (hd : ∀ e ∈ done, GoodEvaluation b f initial e) :
    ∃ x minf code done', runNlopt (wrappedObjective Dbl.log Dbl.exp b f initial) run done = .ok (x, minf, code, done') ∧
      x.length = (tunable initial).length ∧ (∀ v ∈ x, v ≠ .nan) ∧ (∀ e ∈ done', GoodEvaluation b f initial e) ∧
      (run.ReportsBest (done.map fun e => (e.x, e.metric)) →
        (x, minf) ∈ done'.map (fun e => (e.x, e.metric)) ∧ ∀ e ∈ done', ¬ e.metric < minf) := by
  induction run generalizing done with
  | finish x minf code =>
    obtain ⟨h1, h2, h3⟩ := hr
    refine ⟨x, minf, code, done, ?_, h1, h2, hd, fun hb => ⟨hb.1, fun e he => ?_⟩⟩
    · rw [runNlopt, if_neg (by omega)]
    · exact hb.2 _ (List.mem_map.2 ⟨e, he, rfl⟩)
  | ask x grad next ih =>
    obtain ⟨h1, h2, h3, h4⟩ := hr
    obtain ⟨e, he1, he2, he3⟩ := wrappedObjective_ok b f h h1 h2 h3
    obtain ⟨x', minf, code, done', g1, g2, g3, g4, g5⟩ := ih e.metric e.grad (h4 _ _) (done ++ [e]) (by
      intro e' he'
      rcases List.mem_append.1 he' with he' | he'
      · exact hd e' he'
      · rw [List.mem_singleton.1 he']; exact he3)
    refine ⟨x', minf, code, done', ?_, g2, g3, g4, fun hb => g5 ?_⟩
    · rw [runNlopt, he1, except_ok_bind]
      exact g1
    · rw [NloptRun.ReportsBest] at hb
      simpa [he2] using hb e.metric e.grad

theorem log_not_lt {v w : Dbl} (h : ¬ v < w) : ¬ Dbl.log v < Dbl.log w := by
  cases v with
  | fin x =>
    cases w with
    | fin y =>
      simp only [Dbl.fin_lt, not_lt] at h
      simp only [Dbl.log]
      split_ifs with h1 h2 h3 h4 h5 h6 <;> simp_all
      · exact Real.log_le_log ‹_› h
      · linarith
    | pinf => simp at h
    | ninf => simp [Dbl.log]
    | nan => simp [Dbl.log]
  | pinf => cases w <;> simp_all [Dbl.log]
  | ninf => simp [Dbl.log]
  | nan => simp [Dbl.log]

theorem toScale_not_lt (p : Parameter) {v w : Dbl} (h : ¬ v < w) :
    ¬ toScale Dbl.log p v < toScale Dbl.log p w := by
  unfold toScale
  split_ifs
  · exact log_not_lt h
  · exact h

theorem zip_map_map {α β γ δ : Type} (l : List α) (f : α → β) (g : α → γ) (k : α → δ) :
    (l.map f).zip ((l.map g).zip (l.map k)) = l.map fun a => (f a, g a, k a) := by
  induction l with
  | nil => rfl
  | cons a t ih => simp [ih]

/-! ## The claims -/

/-- C110: both default optimizers have one coordinate for every parameter that is not fixed, in the order of the names,
with the bounds of its prior on the scale of the optimizer; the start of every run, the present values on that scale, is
accepted by NLopt. -/
theorem C110_optimizer (b : Build) (ps : ParameterStore) (hin : NotOutside ps) (hfew : (tunable ps).length < 2 ^ 32)
    (gradient : Bool) :
    ∃ opt t, (if gradient then defaultGradientOptimizer Dbl.log b ps else defaultOptimizer Dbl.log b ps) = .ok opt ∧
      getTunableParameters Dbl.log b ps = .ok t ∧
      opt.dimension = (tunable ps).length ∧
      opt.lower = (tunable ps).map (fun kv => toScale Dbl.log kv.2 kv.2.prior.lower) ∧
      opt.upper = (tunable ps).map (fun kv => toScale Dbl.log kv.2 kv.2.prior.upper) ∧
      (opt.ftolAbs = if gradient then 1 / 10 ^ 4 else 1 / 10 ^ 8) ∧
      (opt.ftolRel = if gradient then 1 / 10 ^ 4 else 1 / 10 ^ 6) ∧
      (opt.xtolAbs = if gradient then 1 / 10 ^ 6 else 1 / 10 ^ 18) ∧
      (opt.xtolRel = if gradient then 1 / 10 ^ 6 else 1 / 10 ^ 18) ∧
      t.values = (tunable ps).map (fun kv => toScale Dbl.log kv.2 kv.2.value) ∧
      nloptAccepts opt t.values = true := by
  have hg := getTunable_ok Dbl.log b hin
  have hacc : ∀ opt : NloptOpt, opt.dimension = (tunable ps).length →
      opt.lower = (tunable ps).map (fun kv => toScale Dbl.log kv.2 kv.2.prior.lower) →
      opt.upper = (tunable ps).map (fun kv => toScale Dbl.log kv.2 kv.2.prior.upper) →
      nloptAccepts opt ((tunable ps).map fun kv => toScale Dbl.log kv.2 kv.2.value) = true := by
    intro opt h1 h2 h3
    unfold nloptAccepts
    rw [decide_eq_true_eq, h1, h2, h3]
    refine ⟨by simp, by simp, by simp, ?_⟩
    rw [zip_map_map]
    intro p hp
    obtain ⟨kv, hkv, rfl⟩ := List.mem_map.1 hp
    obtain ⟨o1, o2⟩ := hin kv hkv
    exact ⟨toScale_not_lt kv.2 o1, toScale_not_lt kv.2 o2⟩
  have hmod : (tunable ps).length % 2 ^ 32 = (tunable ps).length := Nat.mod_eq_of_lt hfew
  cases gradient with
  | true =>
    refine ⟨⟨(tunable ps).length % 2 ^ 32, _, _, _, _, _, _⟩, _, ?_, hg, hmod, rfl, rfl, rfl, rfl, rfl, rfl, rfl,
      hacc _ hmod rfl rfl⟩
    simp [defaultGradientOptimizer, hg, except_ok_bind, except_pure]
  | false =>
    refine ⟨⟨(tunable ps).length % 2 ^ 32, _, _, _, _, _, _⟩, _, ?_, hg, hmod, rfl, rfl, rfl, rfl, rfl, rfl, rfl,
      hacc _ hmod rfl rfl⟩
    simp [defaultOptimizer, hg, except_ok_bind, except_pure]

theorem tuneStore_ok (b : Build) (f : ParameterStore → Dbl) (initial : ParameterStore) (h : Tunable initial)
    (opt : NloptOpt) (hdim : opt.dimension = (tunable initial).length)
    (hacc : nloptAccepts opt ((tunable initial).map fun kv => toScale Dbl.log kv.2 kv.2.value) = true)
    (run : List Dbl → NloptRun) (hr : ∀ x, (run x).Regular (tunable initial).length)
    (stream : List Char) :
    ∃ r minf code, tuneStore Dbl.log Dbl.exp b f initial opt run stream = .ok r ∧ GoodSet initial r.output ∧
      (∀ e ∈ r.evaluations, GoodEvaluation b f initial e) ∧
      ((∀ x, (run x).ReportsBest []) → (∃ e ∈ r.evaluations, e.store = r.output ∧ e.metric = minf) ∧
        ∀ e ∈ r.evaluations, ¬ e.metric < minf) ∧
      r.text = stream ++ r.evaluations.flatMap (·.text) ++ tunedText minf code r.output := by
  unfold tuneStore
  rw [getTunable_ok Dbl.log b h.inside, except_ok_bind]
  dsimp only
  have e1 : decide (opt.dimension = ((tunable initial).map fun kv => toScale Dbl.log kv.2 kv.2.value).length) = true := by
    rw [decide_eq_true_eq, hdim]; simp
  rw [e1, albatrossAssert_true, except_ok_bind, hacc]
  obtain ⟨x, minf, code, done, g1, g2, g3, g4, g5⟩ := runNlopt_ok b f h
    (run ((tunable initial).map fun kv => toScale Dbl.log kv.2 kv.2.value)) (hr _) [] (by simp)
  obtain ⟨out, s1, s2⟩ := set_good b h g2 g3
  simp only [Bool.not_true, Bool.false_eq_true, if_false, except_pure, except_ok_bind, g1, s1]
  refine ⟨_, minf, code, rfl, s2, g4, fun hb => ?_, rfl⟩
  obtain ⟨hm, hmin⟩ := g5 (hb _)
  refine ⟨?_, hmin⟩
  obtain ⟨e, he, hee⟩ := List.mem_map.1 hm
  rw [Prod.mk.injEq] at hee
  refine ⟨e, he, ?_, hee.2⟩
  have := (g4 e he).set
  rw [hee.1, s1] at this
  exact (Except.ok.inj this).symm

/-- C110.  Full claim: every run of the tuner, whatever NLopt does, returns parameters: the store with the names, priors and
fixed values of the initial one, all within their bounds, at which the objective was smallest of all evaluations; and it
prints every evaluation and why it stopped.  Proved for the runs that do not end with a failure code, for which see
`C110_failure_false`; every store at which the objective is evaluated is within the bounds as well, NLopt is told the value
of the objective there (infinity for NaN). -/
theorem C110_run_partial (b : Build) (f : ParameterStore → Dbl) (initial : ParameterStore) (h : Tunable initial)
    (run : NloptOpt → List Dbl → NloptRun) (hr : ∀ opt x, (run opt x).Regular (tunable initial).length)
    (stream : List Char) :
    ∃ r minf code, genericTune Dbl.log Dbl.exp b f initial run stream = .ok r ∧ TunedFrom initial r.output ∧
      (∀ e ∈ r.evaluations, TunedFrom initial e.store ∧ e.metric = (if f e.store = .nan then .pinf else f e.store)) ∧
      ((∀ opt x, (run opt x).ReportsBest []) → minf = (if f r.output = .nan then .pinf else f r.output) ∧
        (∃ e ∈ r.evaluations, e.store = r.output) ∧ ∀ e ∈ r.evaluations, ¬ f e.store < f r.output) ∧
      r.text = stream ++ r.evaluations.flatMap (fun e => evaluationText initial e.store e.metric e.grad) ++
        tunedText minf code r.output := by
  have hnn : ∀ d : Dbl, notNan d = if d = .nan then .pinf else d := by
    intro d; cases d <;> simp [notNan, Dbl.isNan]
  obtain ⟨opt, t, o1, o2, o3, -, -, -, -, -, -, o4, o5⟩ := C110_optimizer b initial h.inside h.few false
  rw [if_neg (by simp)] at o1
  unfold genericTune
  rw [o1, except_ok_bind]
  rw [o4] at o5
  obtain ⟨r, minf, code, t1, t2, t3, t4, t5⟩ := tuneStore_ok b f initial h opt o3 o5 (run opt) (hr opt) stream
  refine ⟨r, minf, code, t1, t2.tuned, fun e he => ⟨(t3 e he).good.tuned, ?_⟩, fun hb => ?_, ?_⟩
  · rw [(t3 e he).metric, hnn]
  · obtain ⟨⟨e, he, hes, hem⟩, hmin⟩ := t4 (hb opt)
    have hm := (t3 e he).metric
    rw [hes, hem, hnn] at hm
    refine ⟨hm, ⟨e, he, hes⟩, fun e' he' hlt => ?_⟩
    have := hmin e' he'
    rw [(t3 e' he').metric, hnn, hm] at this
    have n1 : f e'.store ≠ .nan := by intro e; rw [e] at hlt; exact Dbl.not_nan_lt hlt
    have n2 : f r.output ≠ .nan := by intro e; rw [e] at hlt; exact Dbl.not_lt_nan hlt
    rw [if_neg n1, if_neg n2] at this
    exact this hlt
  · rw [t5]
    congr 2
    clear t4 t5
    generalize r.evaluations = l at t3
    induction l with
    | nil => rfl
    | cons e l ih =>
      rw [List.flatMap_cons, List.flatMap_cons, (t3 e (by simp)).text, ih fun e' he' => t3 e' (by simp [he'])]

/-- C110 fails for runs that end with a failure code: the C++ interface of NLopt throws, so that the best parameters of the
run are lost and the text for the code is never printed.  Here NLopt asks for the objective once and stops because roundoff
errors limit the progress. -/
theorem C110_failure_false (b : Build) (f : ParameterStore → Dbl) (initial : ParameterStore) (h : Tunable initial)
    (stream : List Char) :
    genericTune Dbl.log Dbl.exp b f initial
      (fun _ x => .ask (x.map fun _ => .fin 0) [] fun m _ => .finish (x.map fun _ => .fin 0) m (-4)) stream =
        .error .thrown ∧
      resultText (-4) ≠ [] := by
  refine ⟨?_, by decide⟩
  obtain ⟨opt, t, o1, o2, o3, -, -, -, -, -, -, o4, o5⟩ := C110_optimizer b initial h.inside h.few false
  rw [if_neg (by simp)] at o1
  unfold genericTune
  rw [o1, except_ok_bind]
  unfold tuneStore
  rw [o2, except_ok_bind]
  have e1 : decide (opt.dimension = t.values.length) = true := by
    rw [decide_eq_true_eq, o3, o4]; simp
  rw [e1, albatrossAssert_true, except_ok_bind, o5]
  obtain ⟨e, he, -, -⟩ := wrappedObjective_ok b f h (x := t.values.map fun _ => .fin 0) (grad := [])
    (by rw [o4]; simp) (by simp) (.inl rfl)
  simp only [Bool.not_true, Bool.false_eq_true, if_false, except_pure, except_ok_bind, runNlopt, he]
  rfl

/-- The process ends with a code that stands for a failure, whatever the answers are. -/
def NloptRun.Fails (n : Nat) : NloptRun → Prop
  | .finish _ _ code => code < 0
  | .ask x grad next => x.length = n ∧ (∀ v ∈ x, v ≠ .nan) ∧ (grad = [] ∨ grad.length = n) ∧
      ∀ m g, (next m g).Fails n

/-- C110: every run that ends with a failure code throws, whichever code it is and whatever was evaluated before. -/
theorem C110_failure (b : Build) (f : ParameterStore → Dbl) (initial : ParameterStore) (h : Tunable initial)
    (run : NloptOpt → List Dbl → NloptRun) (hr : ∀ opt x, (run opt x).Fails (tunable initial).length)
    (stream : List Char) : genericTune Dbl.log Dbl.exp b f initial run stream = .error .thrown := by
  have key : ∀ (r : NloptRun) (done : List Evaluation), r.Fails (tunable initial).length →
      runNlopt (wrappedObjective Dbl.log Dbl.exp b f initial) r done = .error .thrown := by
    intro r
    induction r with
    | finish x minf code =>
      intro done hc
      rw [runNlopt, if_pos (show code < 0 from hc)]
    | ask x grad next ih =>
      intro done hc
      obtain ⟨h1, h2, h3, h4⟩ := hc
      obtain ⟨e, he1, -, -⟩ := wrappedObjective_ok b f h h1 h2 h3
      rw [runNlopt, he1, except_ok_bind]
      exact ih _ _ _ (h4 _ _)
  obtain ⟨opt, t, o1, o2, o3, -, -, -, -, -, -, o4, o5⟩ := C110_optimizer b initial h.inside h.few false
  rw [if_neg (by simp)] at o1
  unfold genericTune
  rw [o1, except_ok_bind]
  unfold tuneStore
  rw [o2, except_ok_bind]
  have e1 : decide (opt.dimension = t.values.length) = true := by
    rw [decide_eq_true_eq, o3, o4]; simp
  rw [e1, albatrossAssert_true, except_ok_bind, o5]
  simp only [Bool.not_true, Bool.false_eq_true, if_false, except_pure, key _ _ (hr opt t.values)]
  rfl

/-- Non-vacuity: asking once and then failing. -/
example (n : Nat) : (NloptRun.ask (List.replicate n (.fin 0)) [] fun m _ => .finish [] m (-1)).Fails n :=
  ⟨by simp, by simp, .inl rfl, fun _ _ => by simp [NloptRun.Fails]⟩

theorem getTunable_ndebug (lg : Dbl → Dbl) (ps : ParameterStore) :
    getTunableParameters lg .ndebug ps = .ok
      { names := (tunable ps).map Prod.fst
        values := (tunable ps).map fun kv => toScale lg kv.2 kv.2.value
        lowerBounds := (tunable ps).map fun kv => toScale lg kv.2 kv.2.prior.lower
        upperBounds := (tunable ps).map fun kv => toScale lg kv.2 kv.2.prior.upper } := by
  have key : ∀ (ps : ParameterStore) (out : TunableParameters), ps.foldlM (getTunableStep lg .ndebug) out =
      .ok ⟨out.names ++ (tunable ps).map Prod.fst,
      out.values ++ (tunable ps).map (fun kv => toScale lg kv.2 kv.2.value),
      out.lowerBounds ++ (tunable ps).map (fun kv => toScale lg kv.2 kv.2.prior.lower),
      out.upperBounds ++ (tunable ps).map (fun kv => toScale lg kv.2 kv.2.prior.upper)⟩ := by
    intro ps
    induction ps with
    | nil => intro out; simp [tunable, except_pure]
    | cons kv ps ih =>
      intro out
      rw [List.foldlM_cons]
      by_cases hf : kv.2.isFixed = true
      · have ht : tunable (kv :: ps) = tunable ps := by simp [tunable, hf]
        rw [getTunableStep_fixed _ _ _ _ hf, except_ok_bind, ht]
        exact ih out
      · have hf' : kv.2.isFixed = false := by simpa using hf
        have ht : tunable (kv :: ps) = kv :: tunable ps := by simp [tunable, hf']
        have hs : getTunableStep lg .ndebug out kv = .ok ⟨out.names ++ [kv.1], out.values ++ [toScale lg kv.2 kv.2.value],
            out.lowerBounds ++ [toScale lg kv.2 kv.2.prior.lower],
            out.upperBounds ++ [toScale lg kv.2 kv.2.prior.upper]⟩ := by
          unfold getTunableStep toScale
          simp only [hf', Bool.not_false, if_true, albatrossAssert]
          by_cases h1 : kv.2.value < kv.2.prior.lower <;> by_cases h2 : kv.2.prior.upper < kv.2.value <;>
            by_cases h3 : kv.2.prior.isLogScale = true <;>
            simp [h1, h2, h3, except_pure, except_ok_bind]
        rw [hs, except_ok_bind, ih, ht]
        simp
  unfold getTunableParameters
  rw [key]
  simp [TunableParameters.empty]

/-- C110: initial parameters outside of their bounds (on a scale that is not logarithmic) are never tuned: a debug build
stops in an assertion, otherwise NLopt refuses the start. -/
theorem C110_outside (f : ParameterStore → Dbl) (initial : ParameterStore) (kv : String × Parameter)
    (hkv : kv ∈ tunable initial) (hlog : kv.2.prior.isLogScale = false)
    (hout : kv.2.value < kv.2.prior.lower ∨ kv.2.prior.upper < kv.2.value) (run : NloptOpt → List Dbl → NloptRun)
    (stream : List Char) :
    genericTune Dbl.log Dbl.exp .debug f initial run stream = .error .assertFail ∧
    genericTune Dbl.log Dbl.exp .ndebug f initial run stream = .error .thrown := by
  constructor
  · have hd : getTunableParameters Dbl.log .debug initial = .error .assertFail := by
      unfold getTunableParameters
      generalize TunableParameters.empty = out
      induction initial generalizing out with
      | nil => simp [tunable] at hkv
      | cons p ps ih =>
        rw [List.foldlM_cons]
        by_cases hf : p.2.isFixed = true
        · rw [getTunableStep_fixed _ _ _ _ hf, except_ok_bind]
          exact ih (by simpa [tunable, hf] using hkv) out
        · have hf' : p.2.isFixed = false := by simpa using hf
          by_cases h1 : p.2.value < p.2.prior.lower
          · have : getTunableStep Dbl.log .debug out p = .error .assertFail := by
              unfold getTunableStep
              simp [hf', h1, albatrossAssert, except_error_bind]
            rw [this]; rfl
          · by_cases h2 : p.2.prior.upper < p.2.value
            · have : getTunableStep Dbl.log .debug out p = .error .assertFail := by
                unfold getTunableStep
                simp [hf', h1, h2, albatrossAssert, except_error_bind]
              rw [this]; rfl
            · rw [getTunableStep_ok _ _ _ _ hf' h1 h2, except_ok_bind]
              refine ih ?_ _
              rw [show tunable (p :: ps) = p :: tunable ps by simp [tunable, hf']] at hkv
              rcases List.mem_cons.1 hkv with rfl | hm
              · exact absurd hout (by tauto)
              · exact hm
    unfold genericTune defaultOptimizer
    rw [hd]; rfl
  · unfold genericTune defaultOptimizer
    rw [getTunable_ndebug, except_ok_bind]
    simp only [except_pure, except_ok_bind]
    unfold tuneStore
    rw [getTunable_ndebug, except_ok_bind, assert_ndebug, except_ok_bind]
    have hacc : ∀ opt : NloptOpt, opt.lower = (tunable initial).map (fun kv => toScale Dbl.log kv.2 kv.2.prior.lower) →
        opt.upper = (tunable initial).map (fun kv => toScale Dbl.log kv.2 kv.2.prior.upper) →
        nloptAccepts opt ((tunable initial).map fun kv => toScale Dbl.log kv.2 kv.2.value) = false := by
      intro opt h1 h2
      unfold nloptAccepts
      rw [decide_eq_false_iff_not]
      rintro ⟨-, -, -, h⟩
      rw [h1, h2, zip_map_map] at h
      have := h _ (List.mem_map.2 ⟨kv, hkv, rfl⟩)
      simp only [toScale, hlog, Bool.false_eq_true, if_false] at this
      exact absurd hout (by tauto)
    rw [hacc _ rfl rfl]
    rfl

theorem defaultOptimizer_ok (b : Build) {ps : ParameterStore} (hin : NotOutside ps) :
    defaultOptimizer Dbl.log b ps = .ok ⟨(tunable ps).length % 2 ^ 32,
      (tunable ps).map (fun kv => toScale Dbl.log kv.2 kv.2.prior.lower),
      (tunable ps).map (fun kv => toScale Dbl.log kv.2 kv.2.prior.upper),
      1 / 10 ^ 8, 1 / 10 ^ 6, 1 / 10 ^ 18, 1 / 10 ^ 18⟩ := by
  unfold defaultOptimizer
  rw [getTunable_ok Dbl.log b hin]
  simp [except_ok_bind, except_pure]

/-- C110: a model tuner is the generic tuner of the model's parameters and objective. -/
theorem C110_model_tuner {Model : Type} (b : Build) (getParams : Model → ParameterStore)
    (objective : Model → ParameterStore → Dbl) (model : Model) (run : NloptOpt → List Dbl → NloptRun) (stream : List Char)
    (hin : NotOutside (getParams model)) :
    (mkModelTuner Dbl.log b getParams model >>= fun tuner =>
      tuner.tune Dbl.log Dbl.exp b getParams objective run stream) =
      genericTune Dbl.log Dbl.exp b (objective model) (getParams model) run stream := by
  simp only [mkModelTuner, ModelTunerState.tune, genericTune, defaultOptimizer_ok b hin, except_ok_bind, except_pure]

/-- C110: if the model of a tuner is replaced by one with another number of parameters to tune and the optimizer is not
made again, the run does not start: an assertion stops a debug build, otherwise NLopt refuses the start. -/
theorem C110_stale_optimizer {Model : Type} (getParams : Model → ParameterStore)
    (objective : Model → ParameterStore → Dbl) (old new : Model) (run : NloptOpt → List Dbl → NloptRun) (stream : List Char)
    (hold : NotOutside (getParams old)) (hfew : (tunable (getParams old)).length < 2 ^ 32)
    (hnew : NotOutside (getParams new)) (hne : (tunable (getParams old)).length ≠ (tunable (getParams new)).length) :
    (mkModelTuner Dbl.log .debug getParams old >>= fun tuner =>
      ModelTunerState.tune Dbl.log Dbl.exp .debug getParams objective { tuner with model := new } run stream) =
        .error .assertFail ∧
    (mkModelTuner Dbl.log .ndebug getParams old >>= fun tuner =>
      ModelTunerState.tune Dbl.log Dbl.exp .ndebug getParams objective { tuner with model := new } run stream) =
        .error .thrown := by
  have hmod := Nat.mod_eq_of_lt hfew
  constructor
  · simp only [mkModelTuner, ModelTunerState.tune, tuneStore, defaultOptimizer_ok .debug hold,
      defaultOptimizer_ok .debug hnew, getTunable_ok Dbl.log .debug hnew, except_ok_bind, except_pure, List.length_map, hmod,
      hne, decide_false, assert_debug_false]
    rfl
  · simp only [mkModelTuner, ModelTunerState.tune, tuneStore, defaultOptimizer_ok .ndebug hold,
      defaultOptimizer_ok .ndebug hnew, getTunable_ok Dbl.log .ndebug hnew, except_ok_bind, except_pure, hmod,
      assert_ndebug]
    have : ∀ opt : NloptOpt, opt.dimension = (tunable (getParams old)).length → nloptAccepts opt
        ((tunable (getParams new)).map fun kv => toScale Dbl.log kv.2 kv.2.value) = false := by
      intro opt h
      unfold nloptAccepts
      rw [decide_eq_false_iff_not]
      rintro ⟨h', -⟩
      rw [h] at h'
      exact hne (by simpa using h'.symm)
    rw [this _ rfl]
    rfl

/-- C110: the text for a result code is empty exactly for the codes NLopt does not have, and tells the others apart. -/
theorem C110_result_text (c d : Int) :
    (resultText c ≠ [] ↔ (-5 ≤ c ∧ c ≤ -1) ∨ (1 ≤ c ∧ c ≤ 6)) ∧
    (resultText c ≠ [] → resultText c = resultText d → c = d) := by
  have hout : ∀ c : Int, ¬ ((-5 ≤ c ∧ c ≤ -1) ∨ (1 ≤ c ∧ c ≤ 6)) → resultText c = [] := by
    intro c hc
    unfold resultText
    split <;> first | rfl | (exfalso; omega)
  have hin : ∀ c : Int, ((-5 ≤ c ∧ c ≤ -1) ∨ (1 ≤ c ∧ c ≤ 6)) →
      c = -5 ∨ c = -4 ∨ c = -3 ∨ c = -2 ∨ c = -1 ∨ c = 1 ∨ c = 2 ∨ c = 3 ∨ c = 4 ∨ c = 5 ∨ c = 6 := by
    intro c hc; omega
  have hne : ∀ c : Int, ((-5 ≤ c ∧ c ≤ -1) ∨ (1 ≤ c ∧ c ≤ 6)) → resultText c ≠ [] := by
    intro c hc
    rcases hin c hc with rfl | rfl | rfl | rfl | rfl | rfl | rfl | rfl | rfl | rfl | rfl <;> decide
  refine ⟨⟨fun h => by_contra fun hc => h (hout c hc), hne c⟩, fun h he => ?_⟩
  have hc : (-5 ≤ c ∧ c ≤ -1) ∨ (1 ≤ c ∧ c ≤ 6) := by_contra fun hc => h (hout c hc)
  have hd : (-5 ≤ d ∧ d ≤ -1) ∨ (1 ≤ d ∧ d ≤ 6) := by_contra fun hd => h (he.trans (hout d hd))
  rcases hin c hc with rfl | rfl | rfl | rfl | rfl | rfl | rfl | rfl | rfl | rfl | rfl <;>
  rcases hin d hd with rfl | rfl | rfl | rfl | rfl | rfl | rfl | rfl | rfl | rfl | rfl <;>
  first | rfl | (exfalso; revert he; decide)

/-! ## The hypotheses are met -/

theorem upperStore_tunable : Tunable upperStore := by
  obtain ⟨h1, h2, h3, -, h5, h6⟩ := upperStore_ok
  exact ⟨h1, h2, h3, h5, by rw [h6]; simp [upperStore]⟩

/-- A run that asks for the objective with a gradient at `1/2`, then without at `1/4` or `3/4` depending on the gradient,
and reports the better of the two. -/
noncomputable def twoSteps : NloptRun :=
  .ask [.fin (1 / 2)] [.fin 0] fun m g =>
    let y : Dbl := if g = [.fin 0] then .fin (1 / 4) else .fin (3 / 4)
    .ask [y] [] fun m' _ => if m' < m then .finish [y] m' 3 else .finish [.fin (1 / 2)] m 3

example : Tunable upperStore ∧ (∀ x, ((fun _ => twoSteps : List Dbl → NloptRun) x).Regular (tunable upperStore).length) ∧
    ∀ x, ((fun _ => twoSteps : List Dbl → NloptRun) x).ReportsBest [] := by
  refine ⟨upperStore_tunable, fun _ => ?_, fun _ => ?_⟩
  · rw [upperStore_ok.2.2.2.2.2]
    refine ⟨rfl, by simp, .inr rfl, fun m g => ?_⟩
    refine ⟨rfl, ?_, .inl rfl, fun m' g' => ?_⟩
    · split_ifs <;> simp
    · dsimp only
      split_ifs <;> exact ⟨rfl, by simp, by simp⟩
  · intro m g m' g'
    have hirr : ∀ a : Dbl, ¬ a < a := Dbl.lt_irrefl
    dsimp only
    split_ifs with h1 h2 h2
    all_goals
      refine ⟨by simp, fun q hq => ?_⟩
      simp only [List.nil_append, List.cons_append, List.mem_cons, List.not_mem_nil, or_false] at hq
      rcases hq with rfl | rfl
    all_goals first | exact hirr _ | assumption | exact fun h => hirr _ (Dbl.lt_trans h ‹_›)

/-- For `C110_outside` and `C110_stale_optimizer`. -/
example : (("s", ⟨.fin (-1), .nonNegative⟩) : String × Parameter) ∈ tunable [("s", ⟨.fin (-1), .nonNegative⟩)] ∧
    (Prior.nonNegative).isLogScale = false ∧ Dbl.fin (-1) < (Prior.nonNegative).lower ∧
    NotOutside [] ∧ (tunable []).length ≠ (tunable upperStore).length := by
  refine ⟨by simp [tunable, Parameter.isFixed, Prior.isFixed], rfl, by simp [Prior.lower], by simp [NotOutside, tunable], ?_⟩
  rw [upperStore_ok.2.2.2.2.2]
  simp [tunable, upperStore]

end Albatross

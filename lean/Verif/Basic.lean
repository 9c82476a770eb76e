import Mathlib.Data.List.Sort
import Mathlib.Data.List.Nodup
import Mathlib.Order.Lattice
import Mathlib.Order.Basic

/-!
# Outcomes of C++ calls

`Fault` lists the ways in which a C++ call can fail to return a value.  Undefined behaviour is a
distinct outcome (`ub`), so that "the call returns `.ok x`" includes "no undefined behaviour".
-/

namespace Albatross

/-- Ways in which a modelled C++ call does not return normally.
`assertFail`: `assert` aborts; `thrown`: a C++ exception leaves the call; `ub`: undefined behaviour;
`diverges`: the call would loop for ever. -/
inductive Fault
  | assertFail
  | thrown
  | ub
  | diverges
  deriving DecidableEq, Repr

/-- Result of a modelled C++ call. -/
abbrev Outcome (α : Type _) := Except Fault α

instance {α : Type _} [DecidableEq α] : DecidableEq (Outcome α) := fun x y =>
  match x, y with
  | .ok a, .ok b => if h : a = b then isTrue (h ▸ rfl) else isFalse (by simpa using h)
  | .error a, .error b => if h : a = b then isTrue (h ▸ rfl) else isFalse (by simpa using h)
  | .ok _, .error _ => isFalse (by simp)
  | .error _, .ok _ => isFalse (by simp)

/-- Whether `NDEBUG` is defined when the header is compiled
(details/error_handling.hpp lines 36-45). -/
inductive Build
  | debug
  | ndebug
  deriving DecidableEq, Repr

/-- `ALBATROSS_ASSERT` (details/error_handling.hpp lines 36-45): aborts in a debug build, does
nothing when `NDEBUG` is defined. -/
def albatrossAssert (b : Build) (c : Bool) : Outcome Unit :=
  match b, c with
  | _, true => .ok ()
  | .debug, false => .error .assertFail
  | .ndebug, false => .ok ()

/-- `std::vector::operator[]` / unchecked Eigen element read: undefined behaviour out of range. -/
def vecGet {α : Type _} (v : List α) (i : Nat) : Outcome α :=
  match v[i]? with
  | some x => .ok x
  | none => .error .ub

/-- Unchecked element write: undefined behaviour out of range. -/
def vecSet {α : Type _} (v : List α) (i : Nat) (x : α) : Outcome (List α) :=
  if i < v.length then .ok (v.set i x) else .error .ub

@[simp] theorem albatrossAssert_true (b : Build) : albatrossAssert b true = .ok () := by
  cases b <;> rfl

theorem vecGet_ok {α : Type _} {v : List α} {i : Nat} {x : α} :
    vecGet v i = .ok x ↔ v[i]? = some x := by
  unfold vecGet; cases h : v[i]? <;> simp

theorem vecGet_lt {α : Type _} {v : List α} {i : Nat} (h : i < v.length) :
    vecGet v i = .ok v[i] := by
  simp [vecGet, h]

/-! # `std::map`

`std::map<K, V>` is an association list; the invariant `SMap.WF` (keys strictly increasing) is what
iteration order and uniqueness of keys mean.  Every operation is proved to preserve it.
-/

/-- A `std::map<K, V>` in iteration order. -/
abbrev SMap (K V : Type _) := List (K × V)

namespace SMap

variable {K V W : Type _}

/-- Strictly increasing keys. -/
def WF [LT K] (m : SMap K V) : Prop := m.Pairwise (fun a b => a.1 < b.1)

/-- `map_keys` (utils/map_utils.hpp lines 49-58). -/
def keys (m : SMap K V) : List K := m.map Prod.fst

/-- `map_values` (utils/map_utils.hpp lines 63-72). -/
def values (m : SMap K V) : List V := m.map Prod.snd

/-- `std::map::find`. -/
def find? [DecidableEq K] : SMap K V → K → Option V
  | [], _ => none
  | (k', v) :: t, k => if k = k' then some v else find? t k

/-- `map_contains` (utils/map_utils.hpp lines 22-26): `m.find(k) != m.end()`. -/
def contains [DecidableEq K] (m : SMap K V) (k : K) : Bool := (m.find? k).isSome

/-- `std::map::at`: throws when the key is absent. -/
def at? [DecidableEq K] (m : SMap K V) (k : K) : Outcome V :=
  match m.find? k with
  | some v => .ok v
  | none => .error .thrown

/-- Insert or modify the entry of `k`: `f none` is stored when `k` is absent, `f (some v)` replaces
`v`.  All of `operator[]=`, `emplace`, `operator[].push_back` are instances. -/
def alter [LT K] [DecidableLT K] [DecidableEq K] (f : Option V → V) (k : K) : SMap K V → SMap K V
  | [] => [(k, f none)]
  | (k', v) :: t =>
    if k = k' then (k, f (some v)) :: t
    else if k < k' then (k, f none) :: (k', v) :: t
    else (k', v) :: alter f k t

/-- `m[k] = v`. -/
def put [LT K] [DecidableLT K] [DecidableEq K] (m : SMap K V) (k : K) (v : V) : SMap K V :=
  alter (fun _ => v) k m

/-- `m.emplace(k, v)`: does nothing when the key exists. -/
def emplace [LT K] [DecidableLT K] [DecidableEq K] (m : SMap K V) (k : K) (v : V) : SMap K V :=
  alter (fun o => o.getD v) k m

/-- Building a map from a list of entries with `emplace` (also `std::map`'s range constructor). -/
def ofList [LT K] [DecidableLT K] [DecidableEq K] (l : List (K × V)) : SMap K V :=
  l.foldl (fun m kv => m.emplace kv.1 kv.2) []

section lemmas
variable [LinearOrder K]

@[simp] theorem wf_nil : WF ([] : SMap K V) := List.Pairwise.nil

theorem wf_cons {kv : K × V} {m : SMap K V} :
    WF (kv :: m) ↔ (∀ x ∈ m, kv.1 < x.1) ∧ WF m := List.pairwise_cons

theorem WF.tail {kv : K × V} {m : SMap K V} (h : WF (kv :: m)) : WF m := (wf_cons.1 h).2

theorem find?_eq_none {m : SMap K V} {k : K} : m.find? k = none ↔ ∀ x ∈ m, x.1 ≠ k := by
  induction m with
  | nil => simp [find?]
  | cons a t ih =>
    obtain ⟨k', v⟩ := a
    simp only [find?]
    split
    · next h => subst h; simp
    · next h =>
      rw [ih]
      constructor
      · intro h2 x hx
        rcases List.mem_cons.1 hx with rfl | hx
        · exact fun e => h e.symm
        · exact h2 x hx
      · intro h2 x hx; exact h2 x (List.mem_cons_of_mem _ hx)

theorem find?_none_of_lt {m : SMap K V} {k : K} (h : ∀ x ∈ m, k < x.1) : m.find? k = none :=
  find?_eq_none.2 fun x hx e => by
    have := h x hx
    rw [e] at this
    exact absurd this (lt_irrefl _)

theorem mem_of_find? {m : SMap K V} {k : K} {v : V} (h : m.find? k = some v) : (k, v) ∈ m := by
  induction m with
  | nil => simp [find?] at h
  | cons a t ih =>
    obtain ⟨k', v'⟩ := a
    simp only [find?] at h
    split at h
    · next e => subst e; simp at h; simp [h]
    · exact List.mem_cons_of_mem _ (ih h)

theorem find?_of_mem {m : SMap K V} (hm : WF m) {k : K} {v : V} (h : (k, v) ∈ m) :
    m.find? k = some v := by
  induction m with
  | nil => simp at h
  | cons a t ih =>
    obtain ⟨k', v'⟩ := a
    rcases List.mem_cons.1 h with e | h'
    · cases e; simp [find?]
    · have : k' < k := (wf_cons.1 hm).1 _ h'
      simp only [find?, this.ne', if_false]
      exact ih hm.tail h'

theorem mem_iff_find? {m : SMap K V} (hm : WF m) {k : K} {v : V} :
    (k, v) ∈ m ↔ m.find? k = some v := ⟨find?_of_mem hm, mem_of_find?⟩

theorem mem_keys {m : SMap K V} {k : K} : k ∈ m.keys ↔ (m.find? k).isSome := by
  rw [← not_iff_not]
  simp only [keys, List.mem_map, Bool.not_eq_true, Option.isSome_eq_false_iff, Option.isNone_iff_eq_none,
    find?_eq_none]
  constructor
  · intro h x hx e; exact h ⟨x, hx, e⟩
  · rintro h ⟨x, hx, e⟩; exact h x hx e

theorem wf_iff_keys {m : SMap K V} : WF m ↔ m.keys.Pairwise (· < ·) := by
  simp [WF, keys, List.pairwise_map]

theorem WF.keys_nodup {m : SMap K V} (h : WF m) : m.keys.Nodup :=
  (wf_iff_keys.1 h).imp (fun h => h.ne)

theorem mem_alter {f : Option V → V} {k : K} {m : SMap K V} {x : K × V} (h : x ∈ alter f k m) :
    x.1 = k ∨ x ∈ m := by
  induction m with
  | nil => simp [alter] at h; simp [h]
  | cons a t ih =>
    obtain ⟨k', v'⟩ := a
    simp only [alter] at h
    split at h
    · rcases List.mem_cons.1 h with rfl | h
      · simp
      · exact Or.inr (List.mem_cons_of_mem _ h)
    · split at h
      · rcases List.mem_cons.1 h with rfl | h
        · simp
        · exact Or.inr h
      · rcases List.mem_cons.1 h with rfl | h
        · simp
        · rcases ih h with h | h
          · exact Or.inl h
          · exact Or.inr (List.mem_cons_of_mem _ h)

theorem wf_alter {f : Option V → V} {k : K} {m : SMap K V} (hm : WF m) : WF (alter f k m) := by
  induction m with
  | nil => simp [alter, WF]
  | cons a t ih =>
    obtain ⟨k', v'⟩ := a
    have ⟨h1, h2⟩ := wf_cons.1 hm
    simp only [alter]
    split
    · next e => subst e; exact wf_cons.2 ⟨h1, h2⟩
    · next ne =>
      split
      · next hlt =>
        refine wf_cons.2 ⟨?_, hm⟩
        intro x hx
        rcases List.mem_cons.1 hx with rfl | hx
        · exact hlt
        · exact hlt.trans (h1 x hx)
      · next hlt =>
        refine wf_cons.2 ⟨?_, ih h2⟩
        intro x hx
        rcases mem_alter hx with e | hx
        · simp only [e]; exact lt_of_le_of_ne (not_lt.1 hlt) (Ne.symm ne)
        · exact h1 x hx

theorem find?_alter {f : Option V → V} {k : K} {m : SMap K V} (hm : WF m) (k' : K) :
    (alter f k m).find? k' = if k' = k then some (f (m.find? k)) else m.find? k' := by
  induction m with
  | nil => simp [alter, find?]
  | cons a t ih =>
    obtain ⟨k₀, v₀⟩ := a
    have ⟨h1, h2⟩ := wf_cons.1 hm
    simp only [alter]
    by_cases e : k = k₀
    · subst e
      by_cases e' : k' = k <;> simp [find?, e']
    · simp only [e, if_false]
      by_cases hlt : k < k₀
      · simp only [hlt, if_true]
        have hn : (find? t k) = none := find?_none_of_lt fun x hx => hlt.trans (h1 x hx)
        by_cases e' : k' = k
        · subst e'; simp [find?, e, hn]
        · simp [find?, e']
      · simp only [hlt, if_false, find?]
        rw [ih h2]
        by_cases e' : k' = k
        · subst e'; simp [e]
        · simp [e']

theorem wf_put {m : SMap K V} (hm : WF m) (k : K) (v : V) : WF (m.put k v) := wf_alter hm

theorem find?_put {m : SMap K V} (hm : WF m) (k : K) (v : V) (k' : K) :
    (m.put k v).find? k' = if k' = k then some v else m.find? k' := find?_alter hm k'

theorem wf_emplace {m : SMap K V} (hm : WF m) (k : K) (v : V) : WF (m.emplace k v) := wf_alter hm

theorem find?_emplace {m : SMap K V} (hm : WF m) (k : K) (v : V) (k' : K) :
    (m.emplace k v).find? k' = if k' = k then some ((m.find? k).getD v) else m.find? k' :=
  find?_alter hm k'

/-- Two well formed maps with the same lookups are equal. -/
theorem ext {m₁ m₂ : SMap K V} (h₁ : WF m₁) (h₂ : WF m₂)
    (h : ∀ k, m₁.find? k = m₂.find? k) : m₁ = m₂ := by
  induction m₁ generalizing m₂ with
  | nil =>
    cases m₂ with
    | nil => rfl
    | cons a t => have := h a.1; simp [find?] at this
  | cons a t ih =>
    obtain ⟨k, v⟩ := a
    cases m₂ with
    | nil => have := h k; simp [find?] at this
    | cons b s =>
      obtain ⟨k', v'⟩ := b
      have ⟨h1, h2⟩ := wf_cons.1 h₁
      have ⟨g1, g2⟩ := wf_cons.1 h₂
      have hk : k = k' := by
        rcases lt_trichotomy k k' with hlt | e | hlt
        · have := h k
          have hn : find? s k = none := find?_none_of_lt fun x hx => hlt.trans (g1 x hx)
          simp [find?, hlt.ne, hn] at this
        · exact e
        · have := h k'
          have hn : find? t k' = none := find?_none_of_lt fun x hx => hlt.trans (h1 x hx)
          simp [find?, hlt.ne, hn] at this
      subst hk
      have hv : v = v' := by have := h k; simpa [find?] using this
      subst hv
      congr 1
      refine ih h2 g2 fun x => ?_
      by_cases e : x = k
      · subst e
        rw [find?_none_of_lt h1, find?_none_of_lt g1]
      · have := h x; simpa [find?, e] using this

theorem wf_foldl_emplace (l : List (K × V)) {m : SMap K V} (hm : WF m) :
    WF (l.foldl (fun m kv => m.emplace kv.1 kv.2) m) := by
  induction l generalizing m with
  | nil => exact hm
  | cons a t ih => exact ih (wf_emplace hm _ _)

theorem wf_ofList (l : List (K × V)) : WF (ofList l) := wf_foldl_emplace l wf_nil

theorem wf_map_values {m : SMap K V} (f : K × V → W) (hm : WF m) :
    WF (m.map fun kv => (kv.1, f kv) : SMap K W) := by
  simpa [WF, List.pairwise_map] using hm

theorem find?_map_values (m : SMap K V) (f : K × V → W) (k : K) :
    find? (m.map fun kv => (kv.1, f kv) : SMap K W) k = (m.find? k).map fun v => f (k, v) := by
  induction m with
  | nil => rfl
  | cons a t ih =>
    obtain ⟨k', v⟩ := a
    simp only [List.map_cons, find?]
    split
    · next h => subst h; rfl
    · exact ih

/-- Appending (with `emplace`) a list of entries with increasing fresh keys is list append. -/
theorem alter_of_gt (f : Option V → V) {m : SMap K V} {k : K} (h : ∀ x ∈ m, x.1 < k) :
    alter f k m = m ++ [(k, f none)] := by
  induction m with
  | nil => rfl
  | cons a t ih =>
    obtain ⟨k', v'⟩ := a
    have hlt : k' < k := h (k', v') (by simp)
    simp only [alter, hlt.ne', hlt.not_gt, if_false, List.cons_append]
    rw [ih fun x hx => h x (List.mem_cons_of_mem _ hx)]

theorem foldl_emplace_append (l m : SMap K V) (h : WF (m ++ l)) :
    l.foldl (fun m kv => m.emplace kv.1 kv.2) m = m ++ l := by
  induction l generalizing m with
  | nil => simp
  | cons a t ih =>
    have hm : ∀ x ∈ m, x.1 < a.1 := fun x hx =>
      (List.pairwise_append.1 h).2.2 x hx a (by simp)
    simp only [List.foldl_cons]
    rw [emplace, alter_of_gt _ hm]
    have e : m ++ [(a.1, (none : Option V).getD a.2)] = m ++ [a] := by simp
    rw [e, ih]
    · simp
    · simpa using h

theorem ofList_of_wf {l : SMap K V} (h : WF l) : ofList l = l := by
  simpa [ofList] using foldl_emplace_append l [] (by simpa using h)

end lemmas

end SMap

/-! # `std::set` -/

/-- `std::set<K>::insert`. -/
def setInsert {K : Type _} [LT K] [DecidableLT K] [DecidableEq K] (k : K) : List K → List K
  | [] => [k]
  | k' :: t => if k = k' then k' :: t else if k < k' then k :: k' :: t else k' :: setInsert k t

/-- Building a `std::set` from a range. -/
def setOfList {K : Type _} [LT K] [DecidableLT K] [DecidableEq K] (l : List K) : List K :=
  l.foldl (fun s x => setInsert x s) []

section
variable {K : Type _} [LinearOrder K]

theorem mem_setInsert {k x : K} {s : List K} : x ∈ setInsert k s ↔ x = k ∨ x ∈ s := by
  induction s with
  | nil => simp [setInsert]
  | cons a t ih =>
    simp only [setInsert]
    split
    · next h => subst h; simp
    · split
      · simp
      · simp [ih]; tauto

theorem sorted_setInsert {k : K} {s : List K} (hs : s.Pairwise (· < ·)) :
    (setInsert k s).Pairwise (· < ·) := by
  induction s with
  | nil => simp [setInsert]
  | cons a t ih =>
    have ⟨h1, h2⟩ := List.pairwise_cons.1 hs
    simp only [setInsert]
    split
    · exact hs
    · next hne =>
      split
      · next hlt =>
        refine List.pairwise_cons.2 ⟨?_, hs⟩
        intro x hx
        rcases List.mem_cons.1 hx with rfl | hx
        · exact hlt
        · exact hlt.trans (h1 x hx)
      · next hlt =>
        refine List.pairwise_cons.2 ⟨?_, ih h2⟩
        intro x hx
        rcases mem_setInsert.1 hx with rfl | hx
        · exact lt_of_le_of_ne (not_lt.1 hlt) (Ne.symm hne)
        · exact h1 x hx

theorem length_setInsert {k : K} {s : List K} (h : k ∉ s) :
    (setInsert k s).length = s.length + 1 := by
  induction s with
  | nil => simp [setInsert]
  | cons a t ih =>
    simp only [List.mem_cons, not_or] at h
    simp only [setInsert, h.1, if_false]
    split <;> simp [ih h.2]

theorem setInsert_of_mem {k : K} {s : List K} (hs : s.Pairwise (· < ·)) (h : k ∈ s) :
    setInsert k s = s := by
  induction s with
  | nil => simp at h
  | cons a t ih =>
    have ⟨h1, h2⟩ := List.pairwise_cons.1 hs
    simp only [setInsert]
    split
    · rfl
    · next hne =>
      rcases List.mem_cons.1 h with e | h
      · exact absurd e hne
      · have : a < k := h1 k h
        simp [this.not_gt, ih h2 h]

theorem foldl_setInsert (l s : List K) (hs : s.Pairwise (· < ·)) :
    (l.foldl (fun s x => setInsert x s) s).Pairwise (· < ·) ∧
      ∀ x, x ∈ l.foldl (fun s x => setInsert x s) s ↔ x ∈ l ∨ x ∈ s := by
  induction l generalizing s with
  | nil => simp [hs]
  | cons a t ih =>
    have := ih (setInsert a s) (sorted_setInsert hs)
    refine ⟨this.1, fun x => ?_⟩
    rw [List.foldl_cons, this.2, mem_setInsert, List.mem_cons]; tauto

theorem sorted_setOfList (l : List K) : (setOfList l).Pairwise (· < ·) :=
  (foldl_setInsert l [] List.Pairwise.nil).1

theorem mem_setOfList {l : List K} {x : K} : x ∈ setOfList l ↔ x ∈ l := by
  simpa [setOfList] using (foldl_setInsert l [] List.Pairwise.nil).2 x

/-- Strictly increasing lists with the same elements are equal. -/
theorem sorted_ext {l₁ l₂ : List K} (h₁ : l₁.Pairwise (· < ·)) (h₂ : l₂.Pairwise (· < ·))
    (h : ∀ x, x ∈ l₁ ↔ x ∈ l₂) : l₁ = l₂ :=
  List.Perm.eq_of_pairwise (le := (· < ·)) (fun _ _ _ _ ha hb => absurd hb ha.not_gt) h₁ h₂
    ((List.perm_ext_iff_of_nodup (h₁.imp fun h => h.ne) (h₂.imp fun h => h.ne)).2 h)

theorem setOfList_of_sorted {l : List K} (h : l.Pairwise (· < ·)) : setOfList l = l :=
  sorted_ext (sorted_setOfList l) h fun _ => mem_setOfList

end

end Albatross

import Verif.Lemmas.Basic
import Verif.Model.Utils
import Verif.Model.Exact
import Mathlib.Data.List.Sort
import Mathlib.Data.List.Perm.Basic

/-!
# C10–C13 – dimension specifications, names, named arguments
-/

namespace Skopt

variable {F : Type}

/-! ## C10 -/

/-- What the documentation says about a specification made of Python numbers and strings:
`(low, high)` and `(low, high, prior)` (with an optional integer base for "log-uniform") describe a
numeric dimension, `Integer` if both bounds are integers and `Real` otherwise; a list of one or
more other values is a list of categories; an empty list is no dimension. -/
inductive Documented : List (Lit F) → DimKind → Prop
  | intBounds (a b : ℤ) : Documented [.int a, .int b] .integer
  | floatBounds (x y : F) : Documented [.float x, .float y] .real
  | intFloat (a : ℤ) (y : F) : Documented [.int a, .float y] .real
  | floatInt (x : F) (b : ℤ) : Documented [.float x, .int b] .real
  | intPrior (a b : ℤ) (p : String) : p = "uniform" ∨ p = "log-uniform" →
      Documented [.int a, .int b, .str p] .integer
  | floatPrior (x y : F) (p : String) : p = "uniform" ∨ p = "log-uniform" →
      Documented [.float x, .float y, .str p] .real
  | intBase (a b base : ℤ) : Documented [.int a, .int b, .str "log-uniform", .int base] .integer
  | floatBase (x y : F) (base : ℤ) :
      Documented [.float x, .float y, .str "log-uniform", .int base] .real
  | single (v : Lit F) : Documented [v] .categorical
  | strings (ss : List String) : ss ≠ [] → Documented (ss.map .str) .categorical
  | twoBools (a b : Bool) : Documented [.bool a, .bool b] .categorical
  | manyNumbers (xs : List F) : 3 ≤ xs.length → Documented (xs.map .float) .categorical
  | manyInts (xs : List ℤ) : 3 ≤ xs.length → Documented (xs.map .int) .categorical

/-- **C10 (part).** Every documented specification gets the documented kind, and exactly the empty
specification and the two-element lists without any number, string or truth value are rejected. -/
theorem C10_check_dimension_partial (spec : List (Lit F)) :
    (∀ k, Documented spec k → checkDimension spec = .ok k) ∧
    (∀ e, checkDimension spec = .error e ↔ e = .valueError ∧
      (spec = [] ∨ ∃ i j, spec = [.other i, .other j])) := by
  constructor
  · intro k h
    cases h with
    | intBounds => rfl
    | floatBounds => rfl
    | intFloat => rfl
    | floatInt => rfl
    | intPrior a b p hp => rcases hp with rfl | rfl <;> rfl
    | floatPrior a b p hp => rcases hp with rfl | rfl <;> rfl
    | intBase => rfl
    | floatBase => rfl
    | single v => rfl
    | strings ss hss =>
      match ss, hss with
      | [_], _ => rfl
      | [_, _], _ => rfl
      | [_, _, _], _ => rfl
      | [_, _, _, _], _ => rfl
      | _ :: _ :: _ :: _ :: _ :: _, _ => rfl
    | twoBools => rfl
    | manyNumbers xs hx =>
      match xs, hx with
      | [_, _, _], _ => rfl
      | [_, _, _, _], _ => rfl
      | _ :: _ :: _ :: _ :: _ :: _, _ => rfl
    | manyInts xs hx =>
      match xs, hx with
      | [_, _, _], _ => rfl
      | [_, _, _, _], _ => rfl
      | _ :: _ :: _ :: _ :: _ :: _, _ => rfl
  · intro e
    refine ⟨fun h => ?_, by rintro ⟨rfl, rfl | ⟨i, j, rfl⟩⟩ <;> rfl⟩
    match spec with
    | [] => simp [checkDimension] at h; exact ⟨h.symm, Or.inl rfl⟩
    | [_] => simp [checkDimension] at h
    | [a, b] =>
      simp only [checkDimension] at h
      split at h
      · simp at h
      · split at h
        · simp at h
        · split at h
          · simp at h
          · simp only [Except.error.injEq] at h
            refine ⟨h.symm, Or.inr ?_⟩
            cases a <;> cases b <;> simp_all [Lit.isReal, Lit.isStrOrBool]
    | [a, b, p] =>
      simp only [checkDimension] at h
      split at h
      · simp at h
      · split at h <;> simp at h
    | [a, b, p, q] =>
      simp only [checkDimension] at h
      split at h
      · simp at h
      · split at h <;> simp at h
    | _ :: _ :: _ :: _ :: _ :: _ => simp [checkDimension] at h

/-- The hypothesis of C10 is met by non-trivial specifications. -/
example : Documented [Lit.int 1, .float (5/2 : ℚ)] .real := .intFloat 1 _
example : Documented (F := ℚ) [.str "a", .str "b", .str "c"] .categorical :=
  .strings ["a", "b", "c"] (by simp)

/-- C10 fails for mixed bounds with a prior: `(0, 1.5, "uniform")` becomes an `Integer`, although
`(0, 1.5)` is a `Real`. -/
theorem C10_refuted_mixed_bounds_with_prior (y : F) :
    checkDimension [.int 0, .float y] = .ok .real ∧
    checkDimension [.int 0, .float y, .str "uniform"] = .ok .integer ∧
    checkDimension [.float y, .int 10, .str "log-uniform", .int 10] = .ok .integer :=
  ⟨rfl, rfl, rfl⟩

/-- C10 fails for numpy integers: bounds that give an `Integer` dimension are taken as categories
as soon as a prior is added; the same happens with a float base. -/
theorem C10_refuted_numpy_bounds_with_prior (x : F) :
    checkDimension (F := F) [.npint 1, .npint 10] = .ok .integer ∧
    checkDimension (F := F) [.npint 1, .npint 10, .str "uniform"] = .ok .categorical ∧
    checkDimension [.float x, .float x, .str "log-uniform", .float x] = .ok .categorical :=
  ⟨rfl, rfl, rfl⟩

/-! ## C11 -/

theorem getDimFrom_name {s : String} {n : Nat} {dims : List (Dim F)} :
    (∀ d ∈ dims, d.name ≠ some s) ∧ Space.getDimFrom (.name s) n dims = none ∨
    ∃ i d, dims[i]? = some d ∧ d.name = some s ∧ (∀ j < i, ∀ e, dims[j]? = some e →
      e.name ≠ some s) ∧ Space.getDimFrom (.name s) n dims = some (n + i, d) := by
  induction dims generalizing n with
  | nil => exact Or.inl ⟨by simp, rfl⟩
  | cons d ds ih =>
    simp only [Space.getDimFrom]
    by_cases hd : d.name = some s
    · exact Or.inr ⟨0, d, by simp, hd, by simp, by rw [if_pos hd]; rfl⟩
    · rw [if_neg hd]
      rcases ih (n := n + 1) with ⟨h1, h2⟩ | ⟨i, e, h1, h2, h3, h4⟩
      · exact Or.inl ⟨by simpa using ⟨hd, h1⟩, h2⟩
      · refine Or.inr ⟨i + 1, e, by simpa using h1, h2, ?_, by rw [h4]; congr 2; omega⟩
        intro j hj e' he'
        cases j with
        | zero => simp at he'; rw [← he']; exact hd
        | succ j => exact h3 j (by omega) e' (by simpa using he')

theorem getDimFrom_index {k : ℤ} {n : Nat} {dims : List (Dim F)} :
    Space.getDimFrom (.index k) n dims =
      if (n : ℤ) ≤ k then (dims[(k - n).toNat]?).map fun d => (k.toNat, d) else none := by
  induction dims generalizing n with
  | nil => simp [Space.getDimFrom]
  | cons d ds ih =>
    simp only [Space.getDimFrom]
    by_cases hk : k = n
    · rw [if_pos hk, if_pos (by omega)]
      have : (k - n).toNat = 0 := by omega
      have h2 : k.toNat = n := by omega
      simp [this, h2]
    · rw [if_neg hk, ih]
      by_cases h : (n : ℤ) ≤ k
      · have h1 : ((n + 1 : Nat) : ℤ) ≤ k := by push_cast; omega
        rw [if_pos h, if_pos h1]
        have : (k - n).toNat = (k - (n + 1 : Nat)).toNat + 1 := by push_cast; omega
        rw [this, List.getElem?_cons_succ]
      · have h1 : ¬ ((n + 1 : Nat) : ℤ) ≤ k := by push_cast; omega
        rw [if_neg h, if_neg h1]

/-- **C11.** Looking up a name returns the position and the dimension that carries it (names being
distinct, there is no other), an integer `0 ≤ k < n_dims` returns dimension `k`, and every other key
is reported as absent. -/
theorem C11_lookup_partial (dims : List (Dim F))
    (hdist : ∀ (i j : Nat) (d e : Dim F) (s : String), dims[i]? = some d → dims[j]? = some e →
      d.name = some s → e.name = some s → i = j) :
    (∀ (i : Nat) (d : Dim F) (s : String), dims[i]? = some d → d.name = some s →
      Space.getDim dims (.name s) = some (i, d)) ∧
    (∀ s : String, (∀ d ∈ dims, d.name ≠ some s) → Space.getDim dims (.name s) = none) ∧
    (∀ (i : Nat) (d : Dim F), dims[i]? = some d → Space.getDim dims (.index i) = some (i, d)) ∧
    (∀ k : ℤ, k < 0 ∨ (dims.length : ℤ) ≤ k → Space.getDim dims (.index k) = none) := by
  unfold Space.getDim
  refine ⟨?_, ?_, ?_, ?_⟩
  · intro i d s hi hs
    rcases getDimFrom_name (s := s) (n := 0) (dims := dims) with ⟨h1, _⟩ | ⟨j, e, h1, h2, _, h4⟩
    · exact absurd hs (h1 d (List.mem_of_getElem? hi))
    · have := hdist i j d e s hi h1 hs h2
      subst this
      rw [hi] at h1
      simp only [Option.some.injEq] at h1
      subst h1
      simpa using h4
  · intro s hs
    rcases getDimFrom_name (s := s) (n := 0) (dims := dims) with ⟨_, h⟩ | ⟨j, e, h1, h2, _, _⟩
    · exact h
    · exact absurd h2 (hs e (List.mem_of_getElem? h1))
  · intro i d hi
    rw [getDimFrom_index]
    simp [hi]
  · intro k hk
    rw [getDimFrom_index]
    rcases hk with hk | hk
    · rw [if_neg (by simpa using hk)]
    · split
      · rw [List.getElem?_eq_none]
        · rfl
        · push_cast; omega
      · rfl

/-- Non-vacuity of C11: a space with two distinct names. -/
example : ∀ (i j : Nat) (d e : Dim ℚ) (s : String),
    ([.real ⟨0, 1, .uniform, 10, .identity, some "lr", id⟩,
      .int ⟨1, 9, .uniform, 10, .identity, some "n", id⟩] : List (Dim ℚ))[i]? = some d →
    ([.real ⟨0, 1, .uniform, 10, .identity, some "lr", id⟩,
      .int ⟨1, 9, .uniform, 10, .identity, some "n", id⟩] : List (Dim ℚ))[j]? = some e →
    d.name = some s → e.name = some s → i = j := by
  intro i j d e s hi hj hd he
  match i, j with
  | 0, 0 => rfl
  | 1, 1 => rfl
  | 0, 1 =>
    simp at hi hj
    subst hi; subst hj
    simp only [Dim.name, Option.some.injEq] at hd he
    rw [← he] at hd
    exact absurd hd (by decide)
  | 1, 0 =>
    simp at hi hj
    subst hi; subst hj
    simp only [Dim.name, Option.some.injEq] at hd he
    rw [← he] at hd
    exact absurd hd (by decide)
  | i + 2, _ => simp at hi
  | _, j + 2 => simp at hj

/-- The names reported for unnamed dimensions cannot be looked up: `dimension_names` contains
"X_0" but `space["X_0"]` is `(None, None)`. -/
theorem C11_refuted_default_names :
    ∃ dims : List (Dim ℚ), "X_0" ∈ Space.dimensionNames dims ∧
      Space.getDim dims (.name "X_0") = none := by
  refine ⟨[.real ⟨0, 1, .uniform, 10, .identity, none, id⟩], ?_, ?_⟩
  · simp [Space.dimensionNames, Dim.name]
    decide +kernel
  · rfl

/-! ## C12 -/

theorem sortedKeys_perm {V : Type} (space : List (String × V)) :
    (sortedKeys space).Perm (space.map Prod.fst) := List.perm_insertionSort _ _

theorem sortedKeys_sorted {V : Type} (space : List (String × V)) :
    (sortedKeys space).Pairwise (· ≤ ·) := List.pairwise_insertionSort _ _

theorem mapE_dictGet_zip {W : Type} : ∀ {ks : List String} {xs : List W},
    ks.Nodup → ks.length = xs.length → mapE (dictGet (ks.zip xs)) ks = .ok xs := by
  intro ks xs hnd hl
  have hkeys : ((ks.zip xs).map Prod.fst) = ks := by
    rw [List.map_fst_zip (by omega)]
  rw [mapE_eq_ok, List.forall₂_iff_get]
  refine ⟨hl, fun i h1 h2 => ?_⟩
  refine dictGet_of_mem (by rw [hkeys]; exact hnd) ?_
  rw [List.mem_iff_getElem]
  exact ⟨i, by simp; omega, by simp⟩

/-- **C12.** For a search-space dict (distinct keys) and a point with one value per dimension:
`point_asdict` binds the names in sorted order, the `i`-th name to the `i`-th component,
`point_aslist` gives the point back, and conversely a dict with exactly the space's keys is
recovered from its list. -/
theorem C12_point_dict_round_trip {V W : Type} (space : List (String × V))
    (hk : (space.map Prod.fst).Nodup) (point : List W) (hl : point.length = space.length) :
    (∃ ks : List String, ks.Perm (space.map Prod.fst) ∧ ks.Pairwise (· < ·) ∧
      pointAsdict space point = ks.zip point ∧ ks.length = point.length) ∧
    pointAslist space (pointAsdict space point) = .ok point ∧
    (∀ d : List (String × W), (d.map Prod.fst).Perm (space.map Prod.fst) →
      ∃ xs, pointAslist space d = .ok xs ∧ (pointAsdict space xs).Perm d) := by
  have hp := sortedKeys_perm space
  have hnd : (sortedKeys space).Nodup := hp.nodup_iff.2 hk
  have hlen : (sortedKeys space).length = point.length := by
    rw [hp.length_eq, List.length_map, hl]
  have hdict : ∀ xs : List W, xs.length = space.length →
      pointAsdict space xs = (sortedKeys space).zip xs := by
    intro xs hx
    have : (((sortedKeys space).zip xs).map Prod.fst).Nodup := by
      rw [List.map_fst_zip (by rw [hp.length_eq, List.length_map, hx])]
      exact hnd
    exact dictOf_nodup this
  refine ⟨⟨sortedKeys space, hp, ?_, hdict point hl, hlen⟩, ?_, ?_⟩
  · have h1 := sortedKeys_sorted space
    exact (h1.and hnd).imp fun h => lt_of_le_of_ne h.1 h.2
  · rw [hdict point hl]
    exact mapE_dictGet_zip hnd hlen
  · intro d hd
    have hdnd : (d.map Prod.fst).Nodup := hd.nodup_iff.2 hk
    have hall : ∀ k ∈ sortedKeys space, ∃ v, dictGet d k = .ok v := by
      intro k hkm
      have : k ∈ d.map Prod.fst := hd.mem_iff.2 (hp.mem_iff.1 hkm)
      obtain ⟨p, hpm, rfl⟩ := List.mem_map.1 this
      exact ⟨p.2, dictGet_of_mem hdnd hpm⟩
    obtain ⟨xs, hxs⟩ : ∃ xs, mapE (dictGet d) (sortedKeys space) = .ok xs := by
      cases h : mapE (dictGet d) (sortedKeys space) with
      | ok xs => exact ⟨xs, rfl⟩
      | error e =>
        obtain ⟨k, hkm, e', he⟩ := mapE_error_iff.1 ⟨e, h⟩
        obtain ⟨v, hv⟩ := hall k hkm
        rw [hv] at he; simp at he
    refine ⟨xs, hxs, ?_⟩
    have hxl : xs.length = space.length := by
      rw [mapE_length hxs, hp.length_eq, List.length_map]
    rw [hdict xs hxl]
    have hsub : ∀ p ∈ (sortedKeys space).zip xs, p ∈ d := by
      intro p hpm
      rw [mapE_eq_ok] at hxs
      obtain ⟨i, hi, rfl⟩ := List.mem_iff_getElem.1 hpm
      have := (List.forall₂_iff_get.1 hxs).2 i (by simp at hi; omega) (by simp at hi; omega)
      simp only [List.getElem_zip]
      exact dictGet_eq_ok_mem (by simpa using this)
    have hzn : ((sortedKeys space).zip xs).Nodup := by
      refine List.Nodup.of_map Prod.fst ?_
      rw [List.map_fst_zip (by rw [hp.length_eq, List.length_map, hxl])]
      exact hnd
    refine (List.subperm_of_subset hzn hsub).perm_of_length_le ?_
    have : d.length = space.length := by
      have := hd.length_eq; simpa using this
    simp [hp.length_eq, hxl, this]

/-- Non-vacuity of C12. -/
example : pointAsdict [("b", 1), ("a", 2), ("c", 3)] [10, 20, 30] = [("a", 10), ("b", 20), ("c", 30)]
    := by decide +kernel

/-! ## C13 -/

/-- **C13.** For dimensions with distinct names and a point of the right length, the objective is
called exactly once, with a dictionary that maps each dimension's name to the component at its
position and nothing else, and its outcome is returned; a point of the wrong length or an unnamed
dimension is rejected with `ValueError` without calling the objective. -/
theorem C13_use_named_args {R : Type} (dims : List (Dim F))
    (func : List (String × Val F) → Except PyErr R) (x : Point F) :
    (∀ names : List String, dims.map Dim.name = names.map some → names.Nodup →
      x.length = dims.length →
      ∃ arg, useNamedArgs dims func x = ([arg], func arg) ∧ arg.length = dims.length ∧
        ∀ (i : Nat) v, x[i]? = some v → ∃ n, names[i]? = some n ∧ dictGet arg n = .ok v) ∧
    ((x.length ≠ dims.length ∨ ∃ d ∈ dims, d.name = none) →
      useNamedArgs dims func x = ([], .error .valueError)) := by
  constructor
  · intro names hn hnd hl
    have hnl : names.length = dims.length := by
      have := congrArg List.length hn; simpa using this.symm
    have hcheck : checkDimensionNames dims = .ok names := by
      unfold checkDimensionNames
      rw [mapE_eq_ok]
      clear hnd hl hnl
      induction dims generalizing names with
      | nil => cases names <;> simp_all
      | cons d ds ih =>
        cases names with
        | nil => simp at hn
        | cons n ns =>
          simp only [List.map_cons, List.cons.injEq] at hn
          refine .cons ?_ (ih ns hn.2)
          simp [hn.1]
    have hkeys : ((names.zip x).map Prod.fst) = names := List.map_fst_zip (by omega)
    have hd : dictOf (names.zip x) = names.zip x := dictOf_nodup (by rw [hkeys]; exact hnd)
    refine ⟨names.zip x, ?_, by simp; omega, ?_⟩
    · unfold useNamedArgs
      rw [hcheck]
      simp only [hl, ne_eq, not_true_eq_false, if_false, hd]
    · intro i v hv
      obtain ⟨hi, rfl⟩ := List.getElem?_eq_some_iff.1 hv
      have hi' : i < names.length := by omega
      refine ⟨names[i], List.getElem?_eq_getElem hi', ?_⟩
      refine dictGet_of_mem (by rw [hkeys]; exact hnd) ?_
      rw [List.mem_iff_getElem]
      exact ⟨i, by simp; omega, by simp⟩
  · intro h
    unfold useNamedArgs
    cases hc : checkDimensionNames dims with
    | error e =>
      have : e = .valueError := by
        unfold checkDimensionNames at hc
        clear h
        induction dims with
        | nil => simp [mapE_nil] at hc
        | cons d ds ih =>
          simp only [mapE] at hc
          cases hd : d.name with
          | none => rw [hd] at hc; simp at hc; exact hc.symm
          | some n =>
            rw [hd] at hc
            simp only at hc
            split at hc
            · rename_i hm
              simp at hc
              exact ih (hc ▸ hm)
            · simp at hc
      rw [this]
    | ok names =>
      rcases h with h | ⟨d, hd, hnone⟩
      · simp [h]
      · exfalso
        have : ∃ e, checkDimensionNames dims = .error e := by
          unfold checkDimensionNames
          exact mapE_error_iff.2 ⟨d, hd, .valueError, by simp [hnone]⟩
        rw [hc] at this
        simp at this

/-- Non-vacuity of C13: a call with two named dimensions. -/
example : useNamedArgs (F := ℚ) (R := Nat)
    [.real ⟨0, 1, .uniform, 10, .identity, some "lr", id⟩,
     .int ⟨1, 9, .uniform, 10, .identity, some "n", id⟩] (fun d => .ok d.length)
    [.num (1/2), .num 3] = ([[("lr", .num (1/2)), ("n", .num 3)]], .ok 2) := by
  decide +kernel

end Skopt

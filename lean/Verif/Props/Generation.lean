import Verif.Model.Generators
import Verif.Lemmas.Basic

/-!
# C81: choosing a generator of initial points
-/

namespace Skopt

/-! ## Specification -/

/-- The documented names. -/
def GenKind.docName : GenKind → Option String
  | .sobol => some "sobol"
  | .halton => some "halton"
  | .hammersly => some "hammersly"
  | .lhs => some "lhs"
  | .grid => some "grid"
  | .custom => none

/-- The documented parameters with their defaults, as in the docstrings of the classes. -/
def documented : List (GenKind × String × GVal) :=
  [(.sobol, "skip", .int 0), (.sobol, "randomize", .bool true),
   (.halton, "min_skip", .int 0), (.halton, "max_skip", .int 0), (.halton, "primes", .none),
   (.hammersly, "min_skip", .int 0), (.hammersly, "max_skip", .int 0), (.hammersly, "primes", .none),
   (.lhs, "lhs_type", .str "classic"), (.lhs, "criterion", .str "maximin"), (.lhs, "iterations", .int 1000),
   (.grid, "border", .str "exclude"), (.grid, "use_full_layout", .bool true), (.grid, "append_border", .str "only")]

/-- The value of an attribute, if there is one. -/
def Gen.attr (g : Gen) (k : String) : Option GVal := (dictGet g.attrs k).toOption

/-- The value given for a parameter, if there is one. -/
def given (params : List (String × GVal)) (k : String) : Option GVal := (dictGet params k).toOption

/-! ## Helpers -/

theorem dictGet_dictSet (d : List (String × GVal)) (k k' : String) (v : GVal) :
    (dictGet (dictSet d k v) k').toOption = if k = k' then some v else (dictGet d k').toOption := by
  have conv : ∀ (d : List (String × GVal)) (k : String),
      (dictGet d k).toOption = (d.find? fun p => decide (p.1 = k)).map Prod.snd := by
    intro d k
    unfold dictGet
    cases d.find? fun p => decide (p.1 = k) <;> rfl
  rw [conv, conv]
  unfold dictSet
  split
  · rename_i hany
    induction d with
    | nil => cases hany
    | cons p d ih =>
      rw [List.map_cons]
      by_cases hp : p.1 = k
      · rw [if_pos hp]
        by_cases hk : k = k'
        · subst hk
          rw [if_pos rfl, List.find?_cons_of_pos (by simp)]; rfl
        · rw [if_neg hk, List.find?_cons_of_neg (by simpa using hk), List.find?_cons_of_neg (by rw [hp]; simpa using hk)]
          by_cases hany' : d.any (fun p => decide (p.1 = k)) = true
          · rw [ih hany', if_neg hk]
          · have : d.map (fun p => if p.1 = k then (k, v) else p) = d := by
              conv_rhs => rw [← List.map_id d]
              apply List.map_congr_left
              intro q hq
              rw [if_neg]
              · rfl
              · intro e
                exact hany' (List.any_eq_true.2 ⟨q, hq, by simpa using e⟩)
            rw [this]
      · rw [if_neg hp]
        have hany' : d.any (fun p => decide (p.1 = k)) = true := by
          rw [List.any_cons] at hany
          simpa [hp] using hany
        by_cases hk' : p.1 = k'
        · rw [List.find?_cons_of_pos (by simpa using hk'), List.find?_cons_of_pos (by simpa using hk'), if_neg]
          intro e; exact hp (hk'.trans e.symm)
        · rw [List.find?_cons_of_neg (by simpa using hk'), List.find?_cons_of_neg (by simpa using hk')]
          exact ih hany'
  · rename_i hany
    rw [List.find?_append]
    by_cases hk : k = k'
    · subst hk
      rw [if_pos rfl]
      have : d.find? (fun p => decide (p.1 = k)) = none := by
        rw [List.find?_eq_none]
        intro q hq hqk
        exact hany (List.any_eq_true.2 ⟨q, hq, hqk⟩)
      rw [this]
      simp
    · rw [if_neg hk, List.find?_cons_of_neg (by simpa using hk)]
      simp

theorem setParams_attr (params : List (String × GVal)) (hnd : (params.map Prod.fst).Nodup) (g : Gen) (k : String) :
    (g.setParams params).attr k = (given params k).or (g.attr k) := by
  induction params generalizing g with
  | nil => rfl
  | cons p ps ih =>
    rw [List.map_cons, List.nodup_cons] at hnd
    have e : g.setParams (p :: ps) = (Gen.setParams ⟨g.kind, dictSet g.attrs p.1 p.2⟩ ps) := rfl
    rw [e, ih hnd.2]
    unfold Gen.attr
    simp only
    rw [dictGet_dictSet]
    unfold given
    by_cases hk : p.1 = k
    · rw [if_pos hk]
      have h1 : (dictGet ps k).toOption = none := by
        cases hg : dictGet ps k with
        | error e => rfl
        | ok v => exact absurd (List.mem_map.2 ⟨_, dictGet_eq_ok_mem hg, rfl⟩) (hk ▸ hnd.1)
      have h2 : (dictGet (p :: ps) k).toOption = some p.2 := by
        unfold dictGet
        rw [List.find?_cons_of_pos (by simpa using hk)]; rfl
      rw [h1, h2]; rfl
    · rw [if_neg hk]
      have h2 : dictGet (p :: ps) k = dictGet ps k := by
        unfold dictGet
        rw [List.find?_cons_of_neg (by simpa using hk)]
      rw [h2]

theorem generatorOf_spec (s : String) :
    (∀ k, generatorOf s = some (some k) ↔ k.docName = some s) ∧ (generatorOf s = some none ↔ s = "random") := by
  unfold generatorOf
  by_cases h : s ∈ ["sobol", "halton", "hammersly", "lhs", "random", "grid"]
  · rw [if_neg (not_not.2 h)]
    simp only [List.mem_cons, List.not_mem_nil, or_false] at h
    rcases h with rfl | rfl | rfl | rfl | rfl | rfl <;>
      refine ⟨fun k => ?_, ?_⟩ <;> first | decide | (cases k <;> decide)
  · rw [if_pos h]
    refine ⟨fun k => ⟨(fun e => by cases e), fun e => ?_⟩, (fun e => by cases e), fun e => ?_⟩
    · exfalso
      apply h
      cases k <;> simp only [GenKind.docName, Option.some.injEq, reduceCtorEq] at e <;> subst e <;> decide
    · subst e
      exact absurd (by decide) h

/-! ## C81 -/

/-- **C81 (names).** A documented name, in upper or lower case, gives a generator of that class; "random" (and `None`)
gives no generator; every other string and every other object is refused with `ValueError`. -/
theorem C81_names (s : String) (params : List (String × GVal)) :
    (∀ k, (∃ g, cookGenerator (.str s) params = .ok (some g) ∧ g.kind = k) ↔ k.docName = some s.toLower) ∧
    (cookGenerator (.str s) params = .ok none ↔ s.toLower = "random") ∧
    (cookGenerator (.str s) params = .error .valueError ↔
      s.toLower ≠ "random" ∧ ∀ k : GenKind, k.docName ≠ some s.toLower) ∧
    (∀ t : String, t.toLower = s.toLower → cookGenerator (.str t) params = cookGenerator (.str s) params) ∧
    cookGenerator .none params = .ok none ∧ cookGenerator .other params = .error .valueError := by
  obtain ⟨h1, h2⟩ := generatorOf_spec s.toLower
  refine ⟨fun k => ?_, ?_, ?_, ?_, rfl, rfl⟩
  · rw [← h1 k]
    cases hg : generatorOf s.toLower with
    | none => simp [cookGenerator, hg]
    | some o => cases o <;> simp [cookGenerator, hg, Gen.setParams]
  · rw [← h2]
    cases hg : generatorOf s.toLower with
    | none => simp [cookGenerator, hg]
    | some o => cases o <;> simp [cookGenerator, hg]
  · rw [ne_eq, ← h2]
    simp only [ne_eq, ← h1]
    cases hg : generatorOf s.toLower with
    | none => simp [cookGenerator, hg]
    | some o => cases o <;> simp [cookGenerator, hg]
  · intro t ht
    simp only [cookGenerator]
    rw [ht]

/-- **C81 (parameters).** The generator has the given parameters; those not given have the documented defaults.

Missing: unknown parameters, which should be refused but are accepted (`C81_refuted_unknown_parameter`). -/
theorem C81_parameters_partial (s : String) (params : List (String × GVal)) (hnd : (params.map Prod.fst).Nodup) (g : Gen)
    (h : cookGenerator (.str s) params = .ok (some g)) (k : String) :
    (∀ v, given params k = some v → g.attr k = some v) ∧
    (given params k = none → ∀ v, g.attr k = some v ↔ (g.kind, k, v) ∈ documented) := by
  unfold cookGenerator at h
  simp only at h
  split at h
  · cases h
  · cases h
  · rename_i kd hk
    cases h
    rw [setParams_attr params hnd]
    constructor
    · intro v hv; rw [hv]; rfl
    · intro hv v
      rw [hv, Option.none_or]
      have hkd : kd ≠ .custom := by
        rintro rfl
        have := ((generatorOf_spec s.toLower).1 .custom).1 hk
        cases this
      show (dictGet kd.defaults k).toOption = some v ↔ (kd, k, v) ∈ documented
      have nd : (kd.defaults.map Prod.fst).Nodup := by cases kd <;> decide
      have h1 : (dictGet kd.defaults k).toOption = some v ↔ (k, v) ∈ kd.defaults := by
        constructor
        · intro hg
          cases hq : dictGet kd.defaults k with
          | error e => rw [hq] at hg; cases hg
          | ok w => rw [hq] at hg; cases hg; exact dictGet_eq_ok_mem hq
        · intro hm
          rw [dictGet_of_mem nd hm]; rfl
      rw [h1]
      cases kd <;> simp [GenKind.defaults, documented] at hkd ⊢ <;> tauto

/-- **C81 (own generator).** A generator object is used itself, whatever its class; the parameters given are set. -/
theorem C81_object (g : Gen) (params : List (String × GVal)) (hnd : (params.map Prod.fst).Nodup) :
    ∃ g', cookGenerator (.gen g) params = .ok (some g') ∧ g'.kind = g.kind ∧
      ∀ k, g'.attr k = (given params k).or (g.attr k) :=
  ⟨_, rfl, rfl, fun k => setParams_attr params hnd g k⟩

/-! ## Examples and negations -/

example : (cookGenerator (.str "LHS") [("criterion", .none)]).toOption.map (fun g => g.map fun g => (g.kind, g.attrs)) =
    some (some (.lhs, [("lhs_type", .str "classic"), ("criterion", .none), ("iterations", .int 1000)])) := by
  decide +kernel

example : cookGenerator (.str "Random") [] = .ok none := ((C81_names "Random" []).2.1).2 (by decide +kernel)

/-- Meets the hypotheses of `C81_parameters_partial`. -/
example : ∃ g', cookGenerator (.gen ⟨.custom, [("depth", .int 3)]⟩) [("depth", .int 4)] = .ok (some g') ∧
    g'.attr "depth" = some (.int 4) := by
  obtain ⟨g', h1, -, h3⟩ := C81_object ⟨.custom, [("depth", .int 3)]⟩ [("depth", .int 4)] (by decide)
  exact ⟨g', h1, by rw [h3]; decide⟩

/-- **C81 is false for unknown parameters**: `set_params` sets any attribute, so a misspelt parameter (`critereon`) is
accepted silently and the generator keeps its default. -/
theorem C81_refuted_unknown_parameter :
    ∃ g, cookGenerator (.str "lhs") [("critereon", .none)] = .ok (some g) ∧ g.attr "criterion" = some (.str "maximin") ∧
      (∀ v, (GenKind.lhs, "critereon", v) ∉ documented) :=
  ⟨Gen.setParams ⟨.lhs, GenKind.lhs.defaults⟩ [("critereon", .none)], by
    have h : generatorOf "lhs".toLower = some (some .lhs) := by decide +kernel
    simp only [cookGenerator, h], by decide +kernel, by intro v; simp [documented]⟩

/-- **C81 is false for "random"**: parameters given together with "random" are ignored silently. -/
theorem C81_refuted_random_parameters : cookGenerator (.str "random") [("skip", .int 3)] = cookGenerator (.str "random") [] := by
  have h : generatorOf "random".toLower = some none := by decide +kernel
  simp only [cookGenerator, h]

end Skopt

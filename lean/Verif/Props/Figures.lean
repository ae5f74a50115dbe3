import Verif.Props.Plots
import Verif.Props.OptimizerCopy

/-!
# C92: the figures of `plot_convergence` and `plot_regret` as a whole
-/

namespace Skopt

variable {F M : Type}

/-- The values recorded in a result are numbers, at least one. -/
def HasNumbers (r : Result F M) (ys : List F) : Prop := r.funcVals = ys.map Flt.fin ∧ ys ≠ []

/-- The curve has one point for each of `1, …, N`, and the value drawn at `n` satisfies `P n`. -/
def CurveOf (P : Nat → ℝ → Prop) (N : Nat) (points : List (Nat × Flt ℝ)) : Prop :=
  points.length = N ∧ ∀ i : Nat, i < N → ∃ v : ℝ, points[i]? = some (i + 1, .fin v) ∧ P (i + 1) v

/-- What an argument of the plot functions should contribute to the figure, if `P ys n v` says that `v` is the value
to be shown for a run with values `ys` after `n` calls: for one result its curve, with the label of the argument; for
a list of results one transparent curve each, without label, and then with the label of the argument the curve of the
averages; all in the colour of the argument. -/
def ArgDepicted (P : List ℝ → Nat → ℝ → Prop) (vals : Result ℝ M → List ℝ) (colour : Nat) (a : PlotArg ℝ M)
    (ds : List (Drawn ℝ)) : Prop :=
  match a.shown with
  | .result r => ∃ pts, ds = [.trace colour a.name false pts] ∧ CurveOf (P (vals r)) r.xIters.length pts
  | .results rs => ∃ r0 curves mean, rs[0]? = some r0 ∧
      ds = curves.map (Drawn.trace colour none true) ++ [.trace colour a.name false mean] ∧
      List.Forall₂ (fun r pts => CurveOf (P (vals r)) r0.xIters.length pts) rs curves ∧
      CurveOf (fun n v => ∃ vs : List ℝ, List.Forall₂ (fun r w => P (vals r) n w) rs vs ∧ v = vs.sum / vs.length)
        r0.xIters.length mean
  | .other => ds = []

/-- The argument is one result, or a non-empty list of results, with numbers. -/
def Plottable (vals : Result ℝ M → List ℝ) (a : PlotArg ℝ M) : Prop :=
  match a.shown with
  | .result r => HasNumbers r (vals r)
  | .results rs => rs ≠ [] ∧ ∀ r ∈ rs, HasNumbers r (vals r)
  | .other => True

theorem curve_of {P : Nat → ℝ → Prop} {N : Nat} {t : List ℝ} (c : Nat) (l : Option String) (b : Bool)
    (hl : t.length = N) (h : ∀ (i : Nat) (v : ℝ), t[i]? = some v → P (i + 1) v) :
    ∃ pts, curve c l b (t.map Flt.fin) = .trace c l b pts ∧ CurveOf P N pts := by
  refine ⟨_, rfl, ?_, ?_⟩
  · simp [hl]
  · intro i hi
    have hi' : i < t.length := by omega
    refine ⟨t[i], ?_, h i _ (List.getElem?_eq_getElem hi')⟩
    rw [List.getElem?_zip_eq_some]
    refine ⟨?_, by simp [hi']⟩
    rw [List.getElem?_range' (by simpa using hi')]
    simp [Nat.add_comm]

theorem drawArg_depicts {P : List ℝ → Nat → ℝ → Prop} {vals : Result ℝ M → List ℝ}
    {f : Nat → List (Flt ℝ) → Except PyErr (List (Flt ℝ))}
    (hf : ∀ (n : Nat) (ys : List ℝ), ys ≠ [] → ∃ t : List ℝ, f n (ys.map Flt.fin) = .ok (t.map Flt.fin) ∧
      t.length = n ∧ ∀ (i : Nat) (v : ℝ), t[i]? = some v → P ys (i + 1) v)
    (c : Nat) (a : PlotArg ℝ M) (ha : Plottable vals a) :
    ∃ ds, drawArg exact f c a = .ok ds ∧ ArgDepicted P vals c a ds := by
  obtain ⟨name, shown⟩ := a
  cases shown with
  | other => exact ⟨[], rfl, rfl⟩
  | result r =>
    obtain ⟨hv, hne⟩ : HasNumbers r (vals r) := ha
    obtain ⟨t, ht, hl, hp⟩ := hf r.xIters.length (vals r) hne
    obtain ⟨pts, hpts, hc⟩ := curve_of (P := P (vals r)) c name false hl hp
    refine ⟨[.trace c name false pts], ?_, pts, rfl, hc⟩
    simp only [drawArg, hv, ht, bind, Except.bind, hpts]
  | results rs =>
    obtain ⟨hne, hv⟩ : rs ≠ [] ∧ ∀ r ∈ rs, HasNumbers r (vals r) := ha
    obtain ⟨r0, rs', rfl⟩ := List.exists_cons_of_ne_nil hne
    have hT : ∀ r : Result ℝ M, ∃ t : List ℝ, HasNumbers r (vals r) →
        f r0.xIters.length r.funcVals = .ok (t.map Flt.fin) ∧ t.length = r0.xIters.length ∧
        ∀ (i : Nat) (v : ℝ), t[i]? = some v → P (vals r) (i + 1) v := by
      intro r
      by_cases h : HasNumbers r (vals r)
      · obtain ⟨t, ht⟩ := hf r0.xIters.length (vals r) h.2
        exact ⟨t, fun _ => by rw [h.1]; exact ht⟩
      · exact ⟨[], fun h' => absurd h' h⟩
    choose T hT using hT
    have hm : mapE (fun r : Result ℝ M => f r0.xIters.length r.funcVals) (r0 :: rs')
        = .ok ((r0 :: rs').map fun r => (T r).map Flt.fin) :=
      mapE_ok_of_forall fun r hr => (hT r (hv r hr)).1
    set rs := r0 :: rs' with hrs
    -- the transparent curves
    have hcur : ∀ l : List (Result ℝ M), (∀ r ∈ l, HasNumbers r (vals r)) → ∃ curves,
        (l.map fun r => (T r).map Flt.fin).map (curve c none true) = curves.map (Drawn.trace c none true) ∧
        List.Forall₂ (fun r pts => CurveOf (P (vals r)) r0.xIters.length pts) l curves := by
      intro l
      induction l with
      | nil => exact fun _ => ⟨[], rfl, .nil⟩
      | cons r l ih =>
        intro h
        obtain ⟨cs, h1, h2⟩ := ih fun x hx => h x (List.mem_cons_of_mem _ hx)
        obtain ⟨_, hl, hp⟩ := hT r (h r List.mem_cons_self)
        obtain ⟨pts, hpts, hc⟩ := curve_of (P := P (vals r)) c none true hl hp
        exact ⟨pts :: cs, by simp only [List.map_cons, hpts, h1], .cons hc h2⟩
    obtain ⟨curves, hcurves, hfor⟩ := hcur rs hv
    -- the averages
    have hmean : meanRows exact r0.xIters.length (rs.map fun r => (T r).map Flt.fin)
        = ((List.range r0.xIters.length).map fun i =>
            (rs.map fun r => (T r).getD i 0).sum / ((rs.map fun r => (T r).getD i 0).length : ℝ)).map Flt.fin := by
      rw [meanRows, List.map_map]
      apply List.map_congr_left
      intro i hi
      have hi' := List.mem_range.1 hi
      show _ = Flt.fin _
      rw [← fltMean_exact (by simp [hrs]), List.map_map, List.map_map]
      congr 1
      apply List.map_congr_left
      intro r hr
      have hl := (hT r (hv r hr)).2.1
      have hi'' : i < (T r).length := by omega
      simp [List.getD, hi'']
    obtain ⟨mean, hmean', hmc⟩ := curve_of
      (P := fun n v => ∃ vs : List ℝ, List.Forall₂ (fun r w => P (vals r) n w) rs vs ∧ v = vs.sum / vs.length)
      (t := (List.range r0.xIters.length).map fun i =>
            (rs.map fun r => (T r).getD i 0).sum / ((rs.map fun r => (T r).getD i 0).length : ℝ))
      (N := r0.xIters.length) c name false (by simp) (by
        intro i v hi
        rw [List.getElem?_map, Option.map_eq_some_iff] at hi
        obtain ⟨k, hk, rfl⟩ := hi
        obtain ⟨hkl, hk'⟩ := List.getElem?_eq_some_iff.1 hk
        have hki : k = i := by simpa using hk'.symm
        subst hki
        have hkn : k < r0.xIters.length := by simpa using hkl
        refine ⟨_, ?_, rfl⟩
        rw [List.forall₂_map_right_iff]
        have : ∀ l : List (Result ℝ M), (∀ r ∈ l, r ∈ rs) →
            List.Forall₂ (fun r r' => P (vals r) (k + 1) ((T r').getD k 0)) l l := by
          intro l
          induction l with
          | nil => exact fun _ => .nil
          | cons r l ih =>
            intro h
            refine .cons ?_ (ih fun x hx => h x (List.mem_cons_of_mem _ hx))
            obtain ⟨_, hl, hp⟩ := hT r (hv r (h r List.mem_cons_self))
            apply hp
            have hk'' : k < (T r).length := by omega
            simp [List.getD, hk'']
        exact this rs fun r hr => hr)
    refine ⟨curves.map (Drawn.trace c none true) ++ [.trace c name false mean], ?_, r0, curves, mean, rfl, rfl, hfor,
      hmc⟩
    have h0 : pyGet rs 0 = .ok r0 := rfl
    simp only [drawArg, h0, bind, Except.bind, hm, hmean, hmean', hcurves]

theorem drawArgs_depict {P : List ℝ → Nat → ℝ → Prop} {vals : Result ℝ M → List ℝ}
    {f : Nat → List (Flt ℝ) → Except PyErr (List (Flt ℝ))}
    (hf : ∀ (n : Nat) (ys : List ℝ), ys ≠ [] → ∃ t : List ℝ, f n (ys.map Flt.fin) = .ok (t.map Flt.fin) ∧
      t.length = n ∧ ∀ (i : Nat) (v : ℝ), t[i]? = some v → P ys (i + 1) v)
    (args : List (PlotArg ℝ M)) (ha : ∀ a ∈ args, Plottable vals a) :
    ∃ parts : List (List (Drawn ℝ)), drawArgs exact f args = .ok parts.flatten ∧ parts.length = args.length ∧
      ∀ (k : Nat) (a : PlotArg ℝ M) (ds : List (Drawn ℝ)), args[k]? = some a → parts[k]? = some ds →
        ArgDepicted P vals k a ds := by
  have h1 : ∀ p : PlotArg ℝ M × Nat, ∃ ds, Plottable vals p.1 →
      drawArg exact f p.2 p.1 = .ok ds ∧ ArgDepicted P vals p.2 p.1 ds := by
    intro p
    by_cases h : Plottable vals p.1
    · obtain ⟨ds, hd⟩ := drawArg_depicts hf p.2 p.1 h; exact ⟨ds, fun _ => hd⟩
    · exact ⟨[], fun h' => absurd h' h⟩
  choose D hD using h1
  have hm : mapE (fun (p : PlotArg ℝ M × Nat) => drawArg exact f p.2 p.1) (args.zip (List.range args.length))
      = .ok ((args.zip (List.range args.length)).map D) :=
    mapE_ok_of_forall fun p hp => (hD p (ha _ (List.of_mem_zip hp).1)).1
  refine ⟨(args.zip (List.range args.length)).map D, ?_, by simp, ?_⟩
  · simp only [drawArgs, hm, bind, Except.bind]
  · intro k a ds hk hds
    rw [List.getElem?_map, Option.map_eq_some_iff] at hds
    obtain ⟨p, hp, rfl⟩ := hds
    rw [List.getElem?_zip_eq_some] at hp
    obtain ⟨hp1, hp2⟩ := hp
    rw [hk] at hp1
    have e1 : p.1 = a := (Option.some.inj hp1).symm
    obtain ⟨_, h2⟩ := List.getElem?_eq_some_iff.1 hp2
    have e2 : p.2 = k := by simpa using h2.symm
    have := (hD p (by rw [e1]; exact ha a (List.mem_of_getElem? hk))).2
    rwa [e1, e2] at this

/-- The value `plot_convergence` should show after `n` calls: the smallest of the first `n` values. -/
def BestSoFar (ys : List ℝ) (n : Nat) (v : ℝ) : Prop := Smallest (ys.take n) v

/-- The value `plot_regret` should show after `n` calls: the sum of the differences of the first `n` values to `m`. -/
def RegretSoFar (m : ℝ) (ys : List ℝ) (n : Nat) (v : ℝ) : Prop := v = ((ys.take n).map fun y => y - m).sum

/-- Full statement (false, see the three refutations below): the figure also has a line at the true minimum whenever one is given,
and a legend whenever something in it is labelled.

**C92, convergence.** For every non-empty sequence of arguments, each a result or a non-empty list of results, with or without a
label, and a true minimum other than zero (or none), `plot_convergence` draws for each argument in turn its traces in
its own colour and with its own label – smallest value so far, the average of these for a list – and then the line at
the true minimum if one is given.  There is a legend if and only if a true minimum is given or the *last* argument
has a label. -/
theorem C92_convergence_figure_partial (vals : Result ℝ M → List ℝ) (args : List (PlotArg ℝ M)) (hne : args ≠ [])
    (ha : ∀ a ∈ args, Plottable vals a) (tm : Option ℝ) (htm : tm ≠ some 0) :
    ∃ (fig : Figure ℝ) (parts : List (List (Drawn ℝ))), plotConvergenceFigure exact args tm = .ok fig ∧
      fig.drawn = parts.flatten ++ tm.toList.map Drawn.level ∧ parts.length = args.length ∧
      (∀ (k : Nat) (a : PlotArg ℝ M) (ds : List (Drawn ℝ)), args[k]? = some a → parts[k]? = some ds →
        ArgDepicted BestSoFar vals k a ds) ∧
      (fig.legend = true ↔ tm.isSome ∨ ∃ s : String, (args.getLast hne).name = some s ∧ s ≠ "") := by
  obtain ⟨parts, h1, h2, h3⟩ := drawArgs_depict (P := BestSoFar) (f := convergenceTrace) (vals := vals)
    (fun n ys hys => trace_ok hys) args ha
  have hlast : args.getLast? = some (args.getLast hne) := List.getLast?_eq_some_getLast hne
  cases tm with
  | some t =>
    have ht : t ≠ exact.ofInt 0 := by
      intro h
      apply htm
      rw [h]
      simp [exact]
    refine ⟨⟨parts.flatten ++ [.level t], true⟩, parts, ?_, rfl, h2, h3, by simp⟩
    simp only [plotConvergenceFigure, h1, bind, Except.bind, ht, if_false]
  | none =>
    refine ⟨⟨parts.flatten, (match (args.getLast hne).name with | some s => decide (s ≠ "") | none => false)⟩, parts,
      ?_, by simp, h2, h3, ?_⟩
    · simp only [plotConvergenceFigure, h1, bind, Except.bind, lastName, hlast]
      rfl
    · cases h : (args.getLast hne).name with
      | none => simp
      | some s => simp

/-- **C92, regret.** `plot_regret` draws for each argument in turn its traces of cumulative regret – with respect to
the given true minimum, or to the smallest value of all results shown if none is given – and their average for a list
of results.  There is a legend if and only if the *last* argument has a label. -/
theorem C92_regret_figure_partial (vals : Result ℝ M → List ℝ) (args : List (PlotArg ℝ M)) (hne : args ≠ [])
    (ha : ∀ a ∈ args, Plottable vals a) (tm : Option ℝ) (hres : tm = none → allResults args ≠ []) :
    ∃ (fig : Figure ℝ) (m : ℝ) (parts : List (List (Drawn ℝ))), plotRegretFigure exact args tm = .ok fig ∧
      (∀ t, tm = some t → m = t) ∧
      (tm = none → Smallest ((allResults args).flatMap vals) m) ∧
      fig.drawn = parts.flatten ∧ parts.length = args.length ∧
      (∀ (k : Nat) (a : PlotArg ℝ M) (ds : List (Drawn ℝ)), args[k]? = some a → parts[k]? = some ds →
        ArgDepicted (RegretSoFar m) vals k a ds) ∧
      (fig.legend = true ↔ ∃ s : String, (args.getLast hne).name = some s ∧ s ≠ "") := by
  have hall : ∀ r ∈ allResults args, HasNumbers r (vals r) := by
    intro r hr
    obtain ⟨a, haa, hr⟩ := List.mem_flatMap.1 hr
    have hp := ha a haa
    obtain ⟨name, shown⟩ := a
    cases shown with
    | result r' =>
      have e : r = r' := by simpa using hr
      subst e
      exact hp
    | results rs => exact hp.2 r hr
    | other => simp at hr
  obtain ⟨m, hm, hm1, hm2⟩ : ∃ m : ℝ, regretReference args tm = .ok (.fin m) ∧
      (∀ t, tm = some t → m = t) ∧ (tm = none → Smallest ((allResults args).flatMap vals) m) := by
    cases tm with
    | some t => exact ⟨t, rfl, fun t' h => (Option.some.inj h), fun h => by simp at h⟩
    | none =>
      obtain ⟨m, h1, h2, _⟩ := C61_regret_trace ((allResults args).map vals) (by simpa using hres rfl)
        (by
          intro v hv
          obtain ⟨r, hr, rfl⟩ := List.mem_map.1 hv
          exact (hall r hr).2)
      refine ⟨m, ?_, by simp, fun _ => by rw [List.flatMap_def]; exact h2⟩
      rw [← h1, List.map_map, regretReference]
      congr 1
      apply List.map_congr_left
      intro r hr
      exact (hall r hr).1
  obtain ⟨parts, h1, h2, h3⟩ := drawArgs_depict (P := RegretSoFar m)
    (f := fun n vals => .ok (regretTrace exact n vals (.fin m))) (vals := vals)
    (fun n ys _ => ⟨sumsAbove n ys m, by rw [regretTrace_exact], by simp [sumsAbove], by
      intro i v hi
      rw [sumsAbove, List.getElem?_map, Option.map_eq_some_iff] at hi
      obtain ⟨k, hk, rfl⟩ := hi
      obtain ⟨_, hk'⟩ := List.getElem?_eq_some_iff.1 hk
      have hki : k = i := by simpa using hk'.symm
      subst hki
      rfl⟩) args ha
  have hlast : args.getLast? = some (args.getLast hne) := List.getLast?_eq_some_getLast hne
  refine ⟨⟨parts.flatten, (match (args.getLast hne).name with | some s => decide (s ≠ "") | none => false)⟩, m, parts,
    ?_, hm1, hm2, rfl, h2, h3, ?_⟩
  · simp only [plotRegretFigure, hm, bind, Except.bind, h1, lastName, hlast]
    rfl
  · cases h : (args.getLast hne).name with
    | none => simp
    | some s => simp

/-- A result with the given values. -/
def figResult (F : Type) [Inhabited F] (ys : List F) : Result F Nat :=
  ⟨.num default, .nan, ys.map Flt.fin, none, ys.map Val.num, []⟩

/-- Two runs of one algorithm and one run of another, as in the documentation of `plot_convergence`. -/
def figArgs : List (PlotArg ℚ Nat) :=
  [⟨some "gp", .results [figResult ℚ [5, 2, 4], figResult ℚ [3, 3, 0]]⟩, ⟨none, .result (figResult ℚ [4, 1])⟩]

deriving instance DecidableEq for Drawn
deriving instance DecidableEq for Figure

example : plotConvergenceFigure ratArith figArgs (some (-1)) = .ok
    ⟨[.trace 0 none true [(1, .fin 5), (2, .fin 2), (3, .fin 2)],
      .trace 0 none true [(1, .fin 3), (2, .fin 3), (3, .fin 0)],
      .trace 0 (some "gp") false [(1, .fin 4), (2, .fin (5/2)), (3, .fin 1)],
      .trace 1 none false [(1, .fin 4), (2, .fin 1)],
      .level (-1)], true⟩ := by decide +kernel

example : plotRegretFigure ratArith figArgs none = .ok
    ⟨[.trace 0 none true [(1, .fin 5), (2, .fin 7), (3, .fin 11)],
      .trace 0 none true [(1, .fin 3), (2, .fin 6), (3, .fin 6)],
      .trace 0 (some "gp") false [(1, .fin 4), (2, .fin (13/2)), (3, .fin (17/2))],
      .trace 1 none false [(1, .fin 4), (2, .fin 5)]], false⟩ := by decide +kernel

/-- The hypotheses of the two theorems are met by such arguments.
Meets the hypotheses of `C92_convergence_figure_partial`, `C92_regret_figure_partial`. -/
example : ∀ a ∈ ([⟨some "gp", .results [figResult ℝ [5, 2, 4], figResult ℝ [3, 3, 0]]⟩,
    ⟨none, .result (figResult ℝ [4, 1])⟩] : List (PlotArg ℝ Nat)),
    Plottable (fun r => r.funcVals.filterMap fun v => match v with | .fin x => some x | .nan => none) a := by
  intro a ha
  simp only [List.mem_cons, List.not_mem_nil, or_false] at ha
  rcases ha with rfl | rfl
  · refine ⟨by simp, ?_⟩
    intro r hr
    simp only [List.mem_cons, List.not_mem_nil, or_false] at hr
    rcases hr with rfl | rfl <;> simp [HasNumbers, figResult]
  · simp [Plottable, HasNumbers, figResult]

/-- **C92 is false for a true minimum of zero**, the most common one (`bench1`, sphere, …): `if true_minimum:`
(plots.py:98) takes 0 for "not given", so `plot_convergence(res, true_minimum=0)` draws no line and no legend, while
any other number is drawn. -/
theorem C92_refuted_zero (r : Result F M) [LinearOrder F] (A : Arith F) (fig : Figure F)
    (h : plotConvergenceFigure A [⟨none, .result r⟩] (some (A.ofInt 0)) = .ok fig) :
    (∀ y, Drawn.level y ∉ fig.drawn) ∧ fig.legend = false := by
  have hd : drawArgs A convergenceTrace [(⟨none, .result r⟩ : PlotArg F M)]
      = (convergenceTrace r.xIters.length r.funcVals).bind fun t => .ok [curve 0 none false t] := by
    simp only [drawArgs, List.length_singleton, List.range_one, List.zip_cons_cons, List.zip_nil_left, mapE, drawArg,
      bind, Except.bind]
    cases convergenceTrace r.xIters.length r.funcVals <;> rfl
  unfold plotConvergenceFigure at h
  rw [hd] at h
  cases ht : convergenceTrace r.xIters.length r.funcVals with
  | error e => simp [ht, bind, Except.bind] at h
  | ok t =>
    simp only [ht, bind, Except.bind, if_true, lastName, List.getLast?_singleton] at h
    obtain rfl := Except.ok.inj h
    simp [curve]

example : ∃ fig, plotConvergenceFigure ratArith [⟨none, .result (figResult ℚ [4, 1])⟩] (some 0) = .ok fig :=
  ⟨⟨[.trace 0 none false [(1, .fin 4), (2, .fin 1)]], false⟩, by decide +kernel⟩

/-- **C92 is false for labels other than the last**: the legend is drawn only if the variable `name` left over from the
loop, i.e. the label of the last argument, is set (plots.py:103, 355).  With a labelled result followed by an unlabelled one
the label is never displayed. -/
theorem C92_refuted_legend :
    plotConvergenceFigure ratArith [⟨some "gp", .result (figResult ℚ [4, 1])⟩, ⟨none, .result (figResult ℚ [3])⟩] none
      = .ok ⟨[.trace 0 (some "gp") false [(1, .fin 4), (2, .fin 1)], .trace 1 none false [(1, .fin 3)]], false⟩ := by
  decide +kernel

/-- **C92 is false without arguments**: `plot_convergence()` and `plot_regret(true_minimum=…)` raise
`UnboundLocalError` at the test for the legend instead of returning the empty axes. -/
theorem C92_refuted_no_arguments [LinearOrder F] (A : Arith F) (t : F) :
    plotConvergenceFigure A ([] : List (PlotArg F M)) none = .error .unboundLocalError ∧
    plotRegretFigure A ([] : List (PlotArg F M)) (some t) = .error .unboundLocalError := by
  constructor <;> rfl

end Skopt

import Verif.Model.Plots
import Verif.Spec.Optimizer
import Verif.Lemmas.OptimizerAsk
import Verif.Props.OptimizerHistory

/-!
# C61: convergence and regret traces; C71: helpers of the plots
-/

namespace Skopt

variable {F M R : Type}

/-- `m` is the smallest of the values, and one of them. -/
def Smallest [LinearOrder F] (ys : List F) (m : F) : Prop := m ∈ ys ∧ ∀ y ∈ ys, m ≤ y

theorem trace_ok [LinearOrder F] {n : Nat} {ys : List F} (hne : ys ≠ []) :
    ∃ t : List F, convergenceTrace n (ys.map Flt.fin) = .ok (t.map Flt.fin) ∧ t.length = n ∧
      ∀ (i : Nat) (m : F), t[i]? = some m → Smallest (ys.take (i + 1)) m := by
  have hmin : ∀ i, ∃ m : F, fltMin ((ys.map Flt.fin).take (i + 1)) = .ok (.fin m) ∧ Smallest (ys.take (i + 1)) m := by
    intro i
    have hne' : ys.take (i + 1) ≠ [] := by
      cases ys with
      | nil => exact absurd rfl hne
      | cons a l => simp
    obtain ⟨m, hm⟩ : ∃ m, fltMin ((ys.take (i + 1)).map Flt.fin) = .ok m := by
      cases h : (ys.take (i + 1)).map Flt.fin with
      | nil => simp at h; simp_all
      | cons a l => exact ⟨_, rfl⟩
    rw [← List.map_take, hm]
    obtain ⟨h1, h2⟩ := fltMin_iff.1 hm
    obtain ⟨m', hm', rfl⟩ := List.mem_map.1 h1
    exact ⟨m', rfl, hm', fun y hy => Flt.fin_le_fin.1 (h2 _ (List.mem_map_of_mem hy))⟩
  choose g hg1 hg2 using hmin
  refine ⟨(List.range n).map g, ?_, by simp, ?_⟩
  · rw [convergenceTrace, List.map_map]
    exact mapE_ok_of_forall fun i _ => hg1 i
  · intro i m h
    rw [List.getElem?_map] at h
    obtain ⟨k, hk, rfl⟩ := Option.map_eq_some_iff.1 h
    have : k = i := by
      have := List.getElem?_eq_some_iff.1 hk
      obtain ⟨_, h⟩ := this
      simpa using h.symm
    subst this
    exact hg2 k

/-- **C61.** For every optimizer whose history consists of numbers, `plot_convergence` of its result draws one value
per observation: the value drawn at `n` is the smallest of the first `n` observations; the trace never increases; its
last value is the reported optimum. -/
theorem C61_convergence_trace [LinearOrder F] (s : Opt F M R) (r : Result F M) (h : getResult s = .ok r) (ys : List F)
    (hy : s.yi = ys.map (fun y => .num (.fin y))) (hl : s.Xi.length = s.yi.length) :
    ∃ t : List F, plotConvergence r = .ok (t.map Flt.fin) ∧ t.length = ys.length ∧
      (∀ (i : Nat) (m : F), t[i]? = some m → Smallest (ys.take (i + 1)) m) ∧
      (∀ (i j : Nat) (a b : F), i ≤ j → t[i]? = some a → t[j]? = some b → b ≤ a) ∧
      t.getLast?.map Flt.fin = some r.fun_ := by
  obtain ⟨b, hb, _, hfun, hvals, _, hxi, _⟩ := (C30_first_best_partial s r h).1 ys hy
  obtain ⟨y, hyb, hleast, _⟩ := hb
  have hne : ys ≠ [] := by rintro rfl; simp at hyb
  obtain ⟨t, ht, htl, hspec⟩ := trace_ok (n := ys.length) hne
  have hlen : r.xIters.length = ys.length := by rw [hxi, hl, hy, List.length_map]
  refine ⟨t, by rw [plotConvergence, hlen, hvals, ht], htl, hspec, ?_, ?_⟩
  · intro i j a c hij hi hj
    have h1 := hspec i a hi
    have h2 := hspec j c hj
    apply h2.2
    have hpre : ys.take (i + 1) <+: ys.take (j + 1) := List.take_prefix_take_left (by omega)
    exact hpre.subset h1.1
  · have hlast : t.getLast? = t[ys.length - 1]? := by rw [List.getLast?_eq_getElem?, htl]
    have hpos : 0 < ys.length := List.length_pos_iff.2 hne
    obtain ⟨m, hm⟩ : ∃ m, t[ys.length - 1]? = some m := ⟨_, List.getElem?_eq_getElem (by omega)⟩
    have hsp := hspec _ _ hm
    rw [Nat.sub_add_cancel hpos, List.take_length] at hsp
    have hmy : m = y := le_antisymm (hsp.2 y (List.mem_of_getElem? hyb)) (hleast m hsp.1)
    rw [hlast, hm, hmy]
    rw [hyb] at hfun
    exact hfun

/-- The result used in the example. -/
def traceOpt : Opt ℚ Nat Nat := { (toyOpt .EI) with
  Xi := [.seq [.num 1], .seq [.num 2], .seq [.num 3]]
  yi := [.num (.fin 5), .num (.fin 2), .num (.fin 4)] }

example : (getResult traceOpt).bind plotConvergence = .ok [.fin 5, .fin 2, .fin 2] := by decide +kernel

/-- Meets the hypotheses of `C61_convergence_trace`. -/
example : traceOpt.yi = [5, 2, 4].map (fun y => .num (.fin y)) ∧ traceOpt.Xi.length = traceOpt.yi.length := by
  constructor <;> rfl

/-- **C61, several results.** For a list of results with at least one observation each, `plot_convergence` draws for
each result a trace with as many values as the *first* result has observations; the value at `n` is the smallest of
the first `n` observations of that result (all of them, if it has fewer). -/
theorem C61_convergence_many [LinearOrder F] (A : Arith F) (r0 : Result F M) (rs : List (Result F M))
    (vals : Result F M → List F) (hv : ∀ r ∈ r0 :: rs, r.funcVals = (vals r).map Flt.fin ∧ vals r ≠ []) :
    ∃ (traces : List (List (Flt F))) (mean : List (Flt F)), plotConvergenceMany A (r0 :: rs) = .ok (traces, mean) ∧
      traces.length = rs.length + 1 ∧ mean.length = r0.xIters.length ∧
      ∀ (k : Nat) (r : Result F M), (r0 :: rs)[k]? = some r → ∃ t : List F, traces[k]? = some (t.map Flt.fin) ∧
        t.length = r0.xIters.length ∧
        ∀ (i : Nat) (m : F), t[i]? = some m → Smallest ((vals r).take (i + 1)) m := by
  have htr : ∀ r ∈ r0 :: rs, ∃ t : List F,
      convergenceTrace r0.xIters.length r.funcVals = .ok (t.map Flt.fin) ∧ t.length = r0.xIters.length ∧
      ∀ (i : Nat) (m : F), t[i]? = some m → Smallest ((vals r).take (i + 1)) m := by
    intro r hr
    rw [(hv r hr).1]
    exact trace_ok (hv r hr).2
  classical
  have htr' : ∀ r : Result F M, ∃ t : List F, r ∈ r0 :: rs →
      convergenceTrace r0.xIters.length r.funcVals = .ok (t.map Flt.fin) ∧ t.length = r0.xIters.length ∧
      ∀ (i : Nat) (m : F), t[i]? = some m → Smallest ((vals r).take (i + 1)) m := by
    intro r
    by_cases hr : r ∈ r0 :: rs
    · obtain ⟨t, ht⟩ := htr r hr; exact ⟨t, fun _ => ht⟩
    · exact ⟨[], fun h => absurd h hr⟩
  choose T hT using htr'
  have hm : mapE (fun r : Result F M => convergenceTrace r0.xIters.length r.funcVals) (r0 :: rs)
      = .ok ((r0 :: rs).map fun r => (T r).map Flt.fin) :=
    mapE_ok_of_forall fun r hr => (hT r hr).1
  refine ⟨(r0 :: rs).map fun r => (T r).map Flt.fin,
    meanRows A r0.xIters.length ((r0 :: rs).map fun r => (T r).map Flt.fin), ?_, ?_, ?_, ?_⟩
  · simp only [plotConvergenceMany, pyGet, List.getElem?_cons_zero, bind, Except.bind, hm]
  · simp
  · simp [meanRows]
  · intro k r hk
    exact ⟨T r, by rw [List.getElem?_map, hk]; rfl, (hT r (List.mem_of_getElem? hk)).2⟩

example : ∃ r0 : Result ℚ Nat, r0.funcVals = [5, 2].map Flt.fin ∧ ([5, 2] : List ℚ) ≠ [] :=
  ⟨⟨.num 1, .fin 2, [.fin 5, .fin 2], none, [.num 0, .num 1], []⟩, rfl, by simp⟩

theorem take_sum_succ (vals : List ℝ) (c : ℝ) (i : Nat) (v : ℝ) (h : vals[i]? = some v) :
    ((vals.take (i + 1)).map fun v => v - c).sum = ((vals.take i).map fun v => v - c).sum + (v - c) := by
  rw [List.take_add_one, h]
  simp

/-- For `n = 1, 2, …`: the sum of the first `n` differences to `m`. -/
noncomputable def sumsAbove (nCalls : Nat) (vals : List ℝ) (m : ℝ) : List ℝ :=
  (List.range nCalls).map fun i => ((vals.take (i + 1)).map fun v => v - m).sum

theorem fltSum_exact (xs : List ℝ) : fltSum exact (xs.map Flt.fin) = .fin xs.sum := by
  have key : ∀ (ys : List ℝ) (a : ℝ),
      (ys.map Flt.fin).foldl (fltAdd exact) (.fin a) = .fin (a + ys.sum) := by
    intro ys
    induction ys with
    | nil => intro a; simp
    | cons y ys ih =>
      intro a
      rw [List.map_cons, List.foldl_cons]
      show (ys.map Flt.fin).foldl (fltAdd exact) (.fin (a + y)) = _
      rw [ih, List.sum_cons, add_assoc]
  show (xs.map Flt.fin).foldl (fltAdd exact) (.fin ((0 : ℤ) : ℝ)) = _
  rw [key]
  simp

theorem regretTrace_exact (n : Nat) (vals : List ℝ) (m : ℝ) :
    regretTrace exact n (vals.map Flt.fin) (.fin m) = (sumsAbove n vals m).map Flt.fin := by
  simp only [regretTrace, sumsAbove, List.map_map]
  apply List.map_congr_left
  intro i _
  show fltSum exact _ = Flt.fin _
  rw [← fltSum_exact, ← List.map_take, List.map_map, List.map_map]
  rfl

/-- **C61, regret.** With the default `true_minimum` – the smallest value of all results shown – the cumulative regret
of each result has one value per observation, starts with the regret of the first observation, grows by the regret of
each further observation, never decreases and is never negative. -/
theorem C61_regret_trace (results : List (List ℝ)) (hne : results ≠ []) (hv : ∀ vals ∈ results, vals ≠ []) :
    ∃ m : ℝ, regretMinimum (results.map fun vals => vals.map Flt.fin) = .ok (.fin m) ∧
      Smallest results.flatten m ∧
      ∀ vals ∈ results, ∃ t : List ℝ,
        regretTrace exact vals.length (vals.map Flt.fin) (.fin m) = t.map Flt.fin ∧ t.length = vals.length ∧
        (∀ v, vals[0]? = some v → t[0]? = some (v - m)) ∧
        (∀ (i : Nat) (v : ℝ), vals[i + 1]? = some v → ∃ a, t[i]? = some a ∧ t[i + 1]? = some (a + (v - m))) ∧
        (∀ (i j : Nat) (a b : ℝ), i ≤ j → t[i]? = some a → t[j]? = some b → a ≤ b) ∧ ∀ a ∈ t, 0 ≤ a := by
  have hmin : ∀ vals : List ℝ, vals ≠ [] → ∃ m : ℝ, fltMin (vals.map Flt.fin) = .ok (.fin m) ∧ Smallest vals m := by
    intro vals hvals
    obtain ⟨m, hm⟩ : ∃ m, fltMin (vals.map Flt.fin) = .ok m := by
      cases vals with
      | nil => exact absurd rfl hvals
      | cons a l => exact ⟨_, rfl⟩
    obtain ⟨h1, h2⟩ := fltMin_iff.1 hm
    obtain ⟨m', hm', rfl⟩ := List.mem_map.1 h1
    exact ⟨m', hm, hm', fun y hy => Flt.fin_le_fin.1 (h2 _ (List.mem_map_of_mem hy))⟩
  classical
  have hmin' : ∀ vals : List ℝ, ∃ m : ℝ, vals ≠ [] →
      fltMin (vals.map Flt.fin) = .ok (.fin m) ∧ Smallest vals m := by
    intro vals
    by_cases h : vals = []
    · exact ⟨0, fun h' => absurd h h'⟩
    · obtain ⟨m, hm⟩ := hmin vals h; exact ⟨m, fun _ => hm⟩
  choose g hg using hmin'
  obtain ⟨m, hm, hleast⟩ := hmin (results.map g) (by simpa using hne)
  have hall : Smallest results.flatten m := by
    constructor
    · obtain ⟨vals, hvals, rfl⟩ := List.mem_map.1 hleast.1
      exact List.mem_flatten.2 ⟨vals, hvals, (hg vals (hv vals hvals)).2.1⟩
    · intro y hy
      obtain ⟨vals, hvals, hyv⟩ := List.mem_flatten.1 hy
      exact le_trans (hleast.2 _ (List.mem_map_of_mem hvals)) ((hg vals (hv vals hvals)).2.2 y hyv)
  refine ⟨m, ?_, hall, ?_⟩
  · have : mapE fltMin (results.map fun vals => vals.map Flt.fin) = .ok ((results.map g).map Flt.fin) := by
      rw [mapE_map, List.map_map]
      exact mapE_ok_of_forall fun vals hvals => (hg vals (hv vals hvals)).1
    simp only [regretMinimum, this, bind, Except.bind, hm]
  · intro vals hvals
    have hnn : ∀ v ∈ vals, 0 ≤ v - m := by
      intro v hv'
      have := hall.2 v (List.mem_flatten.2 ⟨vals, hvals, hv'⟩)
      linarith
    have hget : ∀ (i : Nat) (a : ℝ), (sumsAbove vals.length vals m)[i]? = some a ↔
        i < vals.length ∧ a = ((vals.take (i + 1)).map fun v => v - m).sum := by
      intro i a
      rw [sumsAbove, List.getElem?_map]
      by_cases hi : i < vals.length
      · simp only [List.getElem?_range hi, Option.map_some, Option.some.injEq, hi, true_and]
        exact eq_comm
      · rw [List.getElem?_eq_none (by simpa using hi)]
        simp [hi]
    have hsub : ∀ i, ∀ x ∈ (vals.take i).map (fun v => v - m), 0 ≤ x := by
      intro i x hx
      obtain ⟨v, hv', rfl⟩ := List.mem_map.1 hx
      exact hnn v (List.mem_of_mem_take hv')
    refine ⟨sumsAbove vals.length vals m, regretTrace_exact _ _ _, by simp [sumsAbove], ?_, ?_, ?_, ?_⟩
    · intro v h0
      rw [hget]
      have hlt := (List.getElem?_eq_some_iff.1 h0).1
      refine ⟨hlt, ?_⟩
      rw [take_sum_succ vals m 0 v h0]
      simp
    · intro i v hi
      have hlt := (List.getElem?_eq_some_iff.1 hi).1
      refine ⟨_, (hget i _).2 ⟨by omega, rfl⟩, ?_⟩
      rw [hget]
      exact ⟨hlt, (take_sum_succ vals m (i + 1) v hi).symm⟩
    · intro i j a b hij ha hb
      rw [hget] at ha hb
      rw [ha.2, hb.2]
      obtain ⟨k, hk⟩ : ∃ k, j + 1 = (i + 1) + k := ⟨j - i, by omega⟩
      rw [hk, List.take_add (i := i + 1) (j := k)]
      rw [List.map_append, List.sum_append]
      have : 0 ≤ (((vals.drop (i + 1)).take k).map fun v => v - m).sum := by
        apply List.sum_nonneg
        intro x hx
        obtain ⟨v, hv', rfl⟩ := List.mem_map.1 hx
        exact hnn v (List.mem_of_mem_drop (List.mem_of_mem_take hv'))
      linarith
    · intro a ha
      obtain ⟨i, hi⟩ := List.getElem?_of_mem ha
      rw [hget] at hi
      rw [hi.2]
      exact List.sum_nonneg (hsub _)

example : ([[3, 1], [2, 5, 4]] : List (List ℝ)) ≠ [] ∧ ∀ vals ∈ ([[3, 1], [2, 5, 4]] : List (List ℝ)), vals ≠ [] := by
  simp

/-! ## C71 -/

theorem dictGet_zip_range [DecidableEq F] (cats : List (Val F)) (hnd : cats.Nodup) (k : Nat) (v : Val F)
    (hk : cats[k]? = some v) : catIndex cats v = .ok k := by
  have hlt := (List.getElem?_eq_some_iff.1 hk).1
  have hnd' : ((cats.zip (List.range cats.length)).map Prod.fst).Nodup := by
    rw [List.map_fst_zip (by simp)]
    exact hnd
  unfold catIndex
  rw [dictOf_nodup hnd']
  apply dictGet_of_mem hnd'
  rw [List.mem_iff_getElem?]
  refine ⟨k, ?_⟩
  rw [List.getElem?_zip_eq_some]
  exact ⟨hk, by simp [hlt]⟩

/-- What a coordinate of a member point is drawn as: the number itself, or the position of the category. -/
def DrawnAs (A : Arith F) (d : Dim F) (v : Val F) (x : F) : Prop :=
  match d with
  | .cat c => ∃ k : Nat, c.cats[k]? = some v ∧ x = A.ofInt k
  | _ => v = .num x

/-- The dimension can show the coordinate: a number, or one of the categories, which are distinct. -/
def Showable (d : Dim F) (v : Val F) : Prop :=
  match d with
  | .cat c => c.cats.Nodup ∧ v ∈ c.cats
  | _ => ∃ x, v = .num x

theorem mapCategory_ok [DecidableEq F] (A : Arith F) {d : Dim F} {v : Val F} (h : Showable d v) :
    ∃ x, mapCategory A d v = .ok x ∧ DrawnAs A d v x := by
  cases d with
  | real d => obtain ⟨x, rfl⟩ := h; exact ⟨x, rfl, rfl⟩
  | int d => obtain ⟨x, rfl⟩ := h; exact ⟨x, rfl, rfl⟩
  | cat c =>
    obtain ⟨hnd, hm⟩ := h
    obtain ⟨k, hk⟩ := List.getElem?_of_mem hm
    refine ⟨A.ofInt k, ?_, k, hk, rfl⟩
    simp [mapCategory, dictGet_zip_range c.cats hnd k v hk, bind, Except.bind]

theorem mapRow_ok [DecidableEq F] (A : Arith F) : ∀ {dims : List (Dim F)} {p : Point F},
    List.Forall₂ Showable dims p →
    ∃ row, mapE (fun (dv : Dim F × Val F) => mapCategory A dv.1 dv.2) (dims.zip p) = .ok row ∧
      row.length = dims.length ∧
      ∀ (i : Nat) (d : Dim F) (v : Val F) (x : F), dims[i]? = some d → p[i]? = some v → row[i]? = some x →
        DrawnAs A d v x
  | [], [], _ => ⟨[], rfl, rfl, by simp⟩
  | d :: dims, v :: p, h => by
    cases h with
    | cons h1 h2 =>
      obtain ⟨x, hx, hd⟩ := mapCategory_ok A h1
      obtain ⟨row, hrow, hl, hsp⟩ := mapRow_ok A h2
      refine ⟨x :: row, ?_, by simp [hl], ?_⟩
      · rw [List.zip_cons_cons, mapE_cons_ok]
        exact ⟨x, row, hx, hrow, rfl⟩
      · intro i d' v' x' hd' hv' hx'
        cases i with
        | zero => simp at hd' hv' hx'; subst hd' hv' hx'; exact hd
        | succ i => simp at hd' hv' hx'; exact hsp i d' v' x' hd' hv' hx'

/-- **C71, categories.** The helper behind the evaluation and objective plots maps every point of the space to
numbers of the same shape: numeric coordinates unchanged, categories to their position among the (distinct) categories
of their dimension; and it flags exactly the categorical dimensions. -/
theorem C71_map_categories [DecidableEq F] (A : Arith F) (dims : List (Dim F)) (points : List (Point F))
    (minimum : Point F) (hp : ∀ p ∈ points, List.Forall₂ Showable dims p)
    (hm : List.Forall₂ Showable dims minimum) :
    ∃ pts mn iscat, mapCategories A dims points minimum = .ok (pts, mn, iscat) ∧
      pts.length = points.length ∧
      (∀ (k : Nat) (p : Point F) (row : List F), points[k]? = some p → pts[k]? = some row →
        row.length = dims.length ∧
        ∀ (i : Nat) (d : Dim F) (v : Val F) (x : F), dims[i]? = some d → p[i]? = some v → row[i]? = some x →
          DrawnAs A d v x) ∧
      mn.length = dims.length ∧
      (∀ (i : Nat) (d : Dim F) (v : Val F) (x : F), dims[i]? = some d → minimum[i]? = some v → mn[i]? = some x →
        DrawnAs A d v x) ∧
      iscat.length = dims.length ∧
      ∀ (i : Nat) (d : Dim F), dims[i]? = some d → (iscat[i]? = some true ↔ ∃ c, d = .cat c) := by
  obtain ⟨mn, hmn, hmnl, hmns⟩ := mapRow_ok A hm
  have hrows : ∃ pts, mapE (fun p : Point F => mapE (fun (dv : Dim F × Val F) => mapCategory A dv.1 dv.2) (dims.zip p))
      points = .ok pts := by
    cases h : mapE (fun p : Point F => mapE (fun (dv : Dim F × Val F) => mapCategory A dv.1 dv.2) (dims.zip p))
      points with
    | ok pts => exact ⟨pts, rfl⟩
    | error e =>
      exfalso
      obtain ⟨p, hpm, e', he⟩ := mapE_error_iff.1 ⟨e, h⟩
      obtain ⟨row, hrow, _⟩ := mapRow_ok A (hp p hpm)
      rw [hrow] at he
      cases he
  obtain ⟨pts, hpts⟩ := hrows
  refine ⟨pts, mn, dims.map fun d => match d with | .cat _ => true | _ => false, ?_, mapE_length hpts, ?_, hmnl, hmns,
    by simp, ?_⟩
  · simp only [mapCategories, hpts, hmn, bind, Except.bind]
    rfl
  · intro k p row hk hrowk
    obtain ⟨row', hrow', hl, hsp⟩ := mapRow_ok A (hp p (List.mem_of_getElem? hk))
    have hf := List.forall₂_iff_get.1 (mapE_eq_ok.1 hpts)
    have hk1 := List.getElem?_eq_some_iff.1 hk
    have hk2 := List.getElem?_eq_some_iff.1 hrowk
    obtain ⟨h1, e1⟩ := hk1
    obtain ⟨h2, e2⟩ := hk2
    have := hf.2 k h1 h2
    simp only [List.get_eq_getElem, e1, e2] at this
    rw [hrow'] at this
    have := Except.ok.inj this
    subst this
    exact ⟨hl, hsp⟩
  · intro i d hd
    rw [List.getElem?_map, hd]
    cases d <;> simp

/-- A space with a real and a categorical dimension. -/
def plotDims : List (Dim ℚ) := [.real ⟨0, 10, .uniform, 10, .normalize, none, id⟩,
  .cat ⟨[.str "a", .str "b"], none, .onehot, none, fun _ => "", fun s => .ok (.str s)⟩]

example : List.Forall₂ Showable plotDims [.num 3, .str "b"] := by
  refine .cons ⟨3, rfl⟩ (.cons ⟨by decide, ?_⟩ .nil)
  simp

/-- Meets the hypotheses of `C71_map_categories`. -/
example : mapCategories ratArith plotDims [[.num 3, .str "b"], [.num 0, .str "a"]] [.num 1, .str "b"]
    = .ok ([[3, 1], [0, 0]], [1, 1], [false, true]) := by decide +kernel

/-- **C71, even sampling of categories.** With `m ≥ 1` categories and `n ≥ 1` requested points, the categories shown
are `min m n` different ones in increasing order, starting with the first, and ending with the last if there are at
least two. -/
theorem C71_evenly_sample_categories (m n : Nat) (hm : 0 < m) (hn : 0 < n) :
    (evenlySampleCat m n).length = min m n ∧ (evenlySampleCat m n).Pairwise (· < ·) ∧
    (∀ k ∈ evenlySampleCat m n, k < m) ∧ (evenlySampleCat m n).head? = some 0 ∧
    (2 ≤ min m n → (evenlySampleCat m n).getLast? = some (m - 1)) ∧
    (m ≤ n → evenlySampleCat m n = List.range m) := by
  unfold evenlySampleCat
  set k := min m n with hk
  have hk0 : 0 < k := by omega
  have hkm : k ≤ m := by omega
  by_cases h1 : k = 1
  · have hmn : m ≤ n → m = 1 := by omega
    simp only [linspaceInt, h1]
    refine ⟨rfl, by simp, by simpa using hm, rfl, by omega, ?_⟩
    intro h
    rw [hmn h]
    rfl
  · have hk2 : 0 < k - 1 := by omega
    simp only [linspaceInt, h1, if_false]
    have hstep : ∀ a b : Nat, a < b → a * (m - 1) / (k - 1) < b * (m - 1) / (k - 1) := by
      intro a b hab
      rw [Nat.lt_iff_add_one_le, Nat.le_div_iff_mul_le hk2, Nat.add_mul, one_mul]
      have h2 := Nat.div_mul_le_self (a * (m - 1)) (k - 1)
      have h3 : (a + 1) * (m - 1) ≤ b * (m - 1) := Nat.mul_le_mul_right _ hab
      have h4 : (a + 1) * (m - 1) = a * (m - 1) + (m - 1) := by ring
      omega
    refine ⟨by simp, ?_, ?_, ?_, ?_, ?_⟩
    · rw [List.pairwise_map]
      exact List.pairwise_lt_range.imp fun {a b} h => hstep a b h
    · intro x hx
      obtain ⟨i, hi, rfl⟩ := List.mem_map.1 hx
      have hi' : i < k := List.mem_range.1 hi
      rw [Nat.div_lt_iff_lt_mul hk2]
      have h2 : i * (m - 1) ≤ (k - 1) * (m - 1) := Nat.mul_le_mul_right _ (by omega)
      have h3 : (k - 1) * (m - 1) < m * (k - 1) := by
        rw [Nat.mul_comm m]
        exact Nat.mul_lt_mul_of_pos_left (by omega) hk2
      omega
    · rw [List.head?_map, List.head?_range]
      simp [hk0.ne']
    · intro _
      rw [List.getLast?_map, List.getLast?_range]
      simp only [hk0.ne', if_false, Option.map_some, Option.some.injEq]
      exact Nat.mul_div_cancel_left _ hk2
    · intro h
      have hkm' : k = m := by omega
      rw [hkm'] at hk2 ⊢
      conv_rhs => rw [← List.map_id (List.range m)]
      apply List.map_congr_left
      intro i _
      exact Nat.mul_div_cancel _ hk2

example : evenlySampleCat 7 3 = [0, 3, 6] := by decide

/-- **C71, even sampling of numbers.** The `n ≥ 2` values shown for a numeric dimension start at the lower bound, end
at the upper bound, are all within the bounds and equally spaced. -/
theorem C71_evenly_sample_numbers (lo hi : ℝ) (hlo : lo ≤ hi) (n : Nat) (hn : 2 ≤ n) :
    (linspaceReal lo hi n).length = n ∧ (linspaceReal lo hi n)[0]? = some lo ∧
    (linspaceReal lo hi n)[n - 1]? = some hi ∧ (∀ x ∈ linspaceReal lo hi n, lo ≤ x ∧ x ≤ hi) ∧
    ∀ (i : Nat) (x y : ℝ), (linspaceReal lo hi n)[i]? = some x → (linspaceReal lo hi n)[i + 1]? = some y →
      y - x = (hi - lo) / (n - 1) := by
  have hn1 : n ≠ 1 := by omega
  have hn2 : (0 : ℝ) < (n : ℝ) - 1 := by
    have : (2 : ℝ) ≤ n := by exact_mod_cast hn
    linarith
  simp only [linspaceReal, hn1, if_false]
  refine ⟨by simp, ?_, ?_, ?_, ?_⟩
  · rw [List.getElem?_map, List.getElem?_range (by omega)]
    simp
  · rw [List.getElem?_map, List.getElem?_range (by omega)]
    simp only [Option.map_some, Option.some.injEq]
    rw [Nat.cast_sub (by omega), Nat.cast_one]
    field_simp
    ring
  · intro x hx
    obtain ⟨i, hi', rfl⟩ := List.mem_map.1 hx
    have hi'' : i < n := List.mem_range.1 hi'
    have hi3 : (i : ℝ) ≤ (n : ℝ) - 1 := by
      have : (i : ℝ) + 1 ≤ n := by exact_mod_cast hi''
      linarith
    have hd : 0 ≤ (hi - lo) / ((n : ℝ) - 1) := div_nonneg (by linarith) hn2.le
    have h1 : 0 ≤ (i : ℝ) * ((hi - lo) / ((n : ℝ) - 1)) := by positivity
    have h2 : (i : ℝ) * ((hi - lo) / ((n : ℝ) - 1)) ≤ ((n : ℝ) - 1) * ((hi - lo) / ((n : ℝ) - 1)) :=
      mul_le_mul_of_nonneg_right hi3 hd
    have h3 : ((n : ℝ) - 1) * ((hi - lo) / ((n : ℝ) - 1)) = hi - lo := by field_simp
    constructor <;> linarith
  · intro i x y hx hy
    rw [List.getElem?_map] at hx hy
    obtain ⟨a, ha, rfl⟩ := Option.map_eq_some_iff.1 hx
    obtain ⟨b, hb, rfl⟩ := Option.map_eq_some_iff.1 hy
    have ha' : a = i := by
      obtain ⟨_, h⟩ := List.getElem?_eq_some_iff.1 ha
      simpa using h.symm
    have hb' : b = i + 1 := by
      obtain ⟨_, h⟩ := List.getElem?_eq_some_iff.1 hb
      simpa using h.symm
    subst ha' hb'
    push_cast
    ring

example : (0 : ℝ) ≤ 1 ∧ 2 ≤ 40 := by norm_num

end Skopt

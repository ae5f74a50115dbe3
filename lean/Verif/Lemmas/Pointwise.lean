import Verif.Lemmas.Shape
import Verif.Lemmas.Space

/-!
# Encoding and decoding work value by value

A function on columns is `Elementwise` when it succeeds exactly if it succeeds on every single value and
then returns the single results in order.
-/

namespace Skopt

variable {F α β γ : Type}

/-- On columns whose values satisfy `P`, the function `f` applies `g` to every value. -/
def Elementwise (P : α → Prop) (f : List α → Except PyErr (List β)) (g : α → Except PyErr β) : Prop :=
  ∀ X, (∀ x ∈ X, P x) → ∀ Y, f X = .ok Y ↔ mapE g X = .ok Y

theorem Elementwise.mono {P Q : α → Prop} {f : List α → Except PyErr (List β)} {g : α → Except PyErr β}
    (h : Elementwise P f g) (hPQ : ∀ x, Q x → P x) : Elementwise Q f g :=
  fun X hX Y => h X (fun x hx => hPQ x (hX x hx)) Y

theorem Elementwise.of_mapE (P : α → Prop) (g : α → Except PyErr β) : Elementwise P (mapE g) g :=
  fun _ _ _ => Iff.rfl

theorem mapE_ok_comp {g : α → Except PyErr β} {k : β → Except PyErr γ} {X : List α} {Z : List γ} :
    (∃ Y, mapE g X = .ok Y ∧ mapE k Y = .ok Z) ↔ mapE (fun x => do let y ← g x; k y) X = .ok Z := by
  induction X generalizing Z with
  | nil => simp [mapE_nil]
  | cons x xs ih =>
    constructor
    · rintro ⟨Y, h1, h2⟩
      obtain ⟨y, ys, h3, h4, rfl⟩ := mapE_cons_ok.1 h1
      obtain ⟨z, zs, h5, h6, rfl⟩ := mapE_cons_ok.1 h2
      exact mapE_cons_ok.2 ⟨z, zs, bind_eq_ok.2 ⟨y, h3, h5⟩, ih.1 ⟨ys, h4, h6⟩, rfl⟩
    · intro h
      obtain ⟨z, zs, h1, h2, rfl⟩ := mapE_cons_ok.1 h
      obtain ⟨y, h3, h4⟩ := bind_eq_ok.1 h1
      obtain ⟨ys, h5, h6⟩ := ih.2 h2
      exact ⟨y :: ys, mapE_cons_ok.2 ⟨y, ys, h3, h5, rfl⟩, mapE_cons_ok.2 ⟨z, zs, h4, h6, rfl⟩⟩

theorem Elementwise.comp {P : α → Prop} {Q : β → Prop} {f : List α → Except PyErr (List β)}
    {g : α → Except PyErr β} {f' : List β → Except PyErr (List γ)} {g' : β → Except PyErr γ}
    (h : Elementwise P f g) (h' : Elementwise Q f' g') (hQ : ∀ x y, P x → g x = .ok y → Q y) :
    Elementwise P (fun X => do let Y ← f X; f' Y) (fun x => do let y ← g x; g' y) := by
  intro X hX Z
  rw [← mapE_ok_comp, bind_eq_ok]
  have key : ∀ Y, mapE g X = .ok Y → ∀ y ∈ Y, Q y := by
    intro Y hY y hy
    obtain ⟨x, hx, hxy⟩ := mapE_mem hY hy
    exact hQ x y (hX x hx) hxy
  constructor
  · rintro ⟨Y, h1, h2⟩
    have h1' := (h X hX Y).1 h1
    exact ⟨Y, h1', (h' Y (key Y h1') Z).1 h2⟩
  · rintro ⟨Y, h1, h2⟩
    exact ⟨Y, (h X hX Y).2 h1, (h' Y (key Y h1) Z).2 h2⟩

theorem mapE_ok_fun {g : α → β} {X : List α} : mapE (fun x => Except.ok (g x)) X = .ok (X.map g) :=
  mapE_ok_of_forall fun _ _ => rfl

theorem Elementwise.of_map (P : α → Prop) (g : α → β) :
    Elementwise P (fun X => .ok (X.map g)) (fun x => .ok (g x)) := by
  intro X _ Y
  rw [mapE_ok_fun]

theorem Elementwise.id (P : α → Prop) : Elementwise P (fun X : List α => .ok X) (fun x => .ok x) := by
  intro X _ Y
  rw [mapE_ok_fun, List.map_id' X]

theorem mapE_guard {p : α → Prop} [DecidablePred p] {g : α → β} {e : PyErr} {X : List α} {Y : List β} :
    mapE (fun x => if p x then Except.error e else .ok (g x)) X = .ok Y ↔
      (∀ x ∈ X, ¬ p x) ∧ X.map g = Y := by
  induction X generalizing Y with
  | nil => simp [mapE_nil]
  | cons x xs ih =>
    rw [mapE_cons_ok]
    by_cases hp : p x
    · simp [hp]
    · simp only [hp, if_false, Except.ok.injEq, List.mem_cons, forall_eq_or_imp, not_false_eq_true, true_and,
        List.map_cons]
      constructor
      · rintro ⟨y, ys, rfl, h1, rfl⟩
        obtain ⟨h2, rfl⟩ := ih.1 h1
        exact ⟨h2, rfl⟩
      · rintro ⟨h1, rfl⟩
        exact ⟨_, _, rfl, ih.2 ⟨h1, rfl⟩, rfl⟩

theorem any_guard {p : α → Prop} [DecidablePred p] {e : PyErr} {X : List α} {f : Except PyErr β} {Y : β} :
    (if (X.any fun x => decide (p x)) = true then Except.error e else f) = .ok Y ↔
      (∀ x ∈ X, ¬ p x) ∧ f = .ok Y := by
  by_cases h : (X.any fun x => decide (p x)) = true
  · rw [if_pos h]
    simp only [List.any_eq_true, decide_eq_true_eq] at h
    obtain ⟨x, hx, hp⟩ := h
    simp only [reduceCtorEq, false_iff, not_and]
    exact fun h' => absurd hp (h' x hx)
  · rw [if_neg h]
    simp only [List.any_eq_true, decide_eq_true_eq, not_exists, not_and] at h
    exact ⟨fun h' => ⟨h, h'⟩, fun h' => h'.2⟩

theorem Normalize.transform_elementwise [LinearOrder F] (A : Arith F) (n : Normalize F) :
    ∃ g, Elementwise (fun _ => True) (n.transform A) g := by
  obtain ⟨lo, hi, b⟩ := n
  cases b
  · refine ⟨fun x => if A.add hi A.eps < x ∨ x < A.sub lo A.eps then .error .valueError else .ok
      (if A.sub hi lo = A.ofInt 0 then A.mul x (A.ofInt 0) else A.div (A.sub x lo) (A.sub hi lo)), ?_⟩
    intro X _ Y
    rw [mapE_guard]
    simp only [Normalize.transform, Bool.false_and, Bool.not_false, Bool.true_and, Bool.false_eq_true,
      if_false, any_guard, not_or, ← and_assoc, ← forall_and]
    refine and_congr Iff.rfl ?_
    split <;> simp
  · refine ⟨fun x => if hi < A.ofInt (A.round x) ∨ A.ofInt (A.round x) < lo then .error .valueError else .ok
      (if A.sub hi lo = A.ofInt 0 then A.mul x (A.ofInt 0)
        else A.div (A.sub (A.ofInt (A.round x)) lo) (A.sub hi lo)), ?_⟩
    intro X _ Y
    rw [mapE_guard]
    simp only [Normalize.transform, Bool.false_and, Bool.not_true, Bool.true_and, Bool.false_eq_true,
      if_false, if_true, any_guard, not_or, ← and_assoc, ← forall_and]
    refine and_congr Iff.rfl ?_
    split <;> simp

theorem Normalize.inverse_elementwise [LinearOrder F] (A : Arith F) (n : Normalize F) :
    ∃ g, Elementwise (fun _ => True) (n.inverse A) g := by
  refine ⟨fun x => if A.add (A.ofInt 1) A.eps < x ∨ x < A.sub (A.ofInt 0) A.eps then .error .valueError
    else .ok (if n.isInt then A.ofInt (A.round (A.add (A.mul x (A.sub n.high n.low)) n.low))
      else A.add (A.mul x (A.sub n.high n.low)) n.low), ?_⟩
  intro X _ Y
  rw [mapE_guard]
  simp only [Normalize.inverse, any_guard, not_or, ← and_assoc, ← forall_and]
  refine and_congr Iff.rfl ?_
  split <;> simp

/-- Wrap numbers again after a numeric step. -/
theorem Elementwise.nums {P : Val F → Prop} {f : List F → Except PyErr (List F)} {g : F → Except PyErr F}
    (h : Elementwise (fun _ => True) f g) :
    Elementwise P (fun X => do let xs ← mapE Val.toNum X; let ys ← f xs; .ok (ys.map Val.num))
      (fun v => do let x ← v.toNum; let y ← g x; .ok (.num y)) :=
  (Elementwise.of_mapE P Val.toNum).comp (Q := fun _ => True)
    (h.comp (Q := fun _ => True) (Elementwise.of_map _ _) (fun _ _ _ _ => trivial))
    (fun _ _ _ _ => trivial)

/-- Every stage but a label encoder works value by value. -/
theorem Stage.transform_elementwise [LinearOrder F] (A : Arith F) (s : Stage F) (hs : ∀ e, s ≠ .label e) :
    ∃ g, Elementwise (fun _ => True) (s.transform A) g := by
  cases s with
  | identity => exact ⟨_, Elementwise.id _⟩
  | string str cast => exact ⟨_, Elementwise.of_map _ _⟩
  | logN b =>
    exact ⟨_, (Elementwise.of_mapE _ Val.toNum).comp (Q := fun _ => True)
      (Elementwise.of_map _ fun x => Val.num (logNTransform A b x)) (fun _ _ _ _ => trivial)⟩
  | label e => exact absurd rfl (hs e)
  | normalize n =>
    obtain ⟨g, hg⟩ := n.transform_elementwise A
    exact ⟨_, hg.nums⟩

/-- A label encoder works value by value on its categories. -/
theorem LabelEnc.transform_elementwise [LinearOrder F] (A : Arith F) (e : LabelEnc F)
    {cats : List (Val F)} (hh : Homogeneous cats) :
    ∃ g, Elementwise (fun v => v ∈ cats) ((Stage.label e).transform A) g := by
  refine ⟨fun v => do let i ← dictGet e.mapping v; .ok (.num (A.ofInt i)), ?_⟩
  intro X hX Y
  simp only [Stage.transform, LabelEnc.transform, (hh.subset hX).npArray, ok_bind]

theorem pipelineTransform_elementwise [LinearOrder F] (A : Arith F) :
    ∀ ss : List (Stage F), (∀ s ∈ ss, ∀ e, s ≠ .label e) →
    ∃ g, Elementwise (fun _ => True) (pipelineTransform A ss) g
  | [], _ => ⟨_, Elementwise.id _⟩
  | s :: ss, h => by
    obtain ⟨g1, h1⟩ := s.transform_elementwise A (h s (by simp))
    obtain ⟨g2, h2⟩ := pipelineTransform_elementwise A ss (fun t ht => h t (by simp [ht]))
    exact ⟨_, h1.comp h2 (fun _ _ _ _ => trivial)⟩

theorem pipeline_elementwise [LinearOrder F] (A : Arith F) {P : Val F → Prop} {ss : List (Stage F)}
    {g : Val F → Except PyErr (Val F)} (h : Elementwise P (pipelineTransform A ss) g) :
    ∃ g', Elementwise P ((Transformer.pipeline ss).transform A) g' :=
  ⟨_, h.comp (Q := fun _ => True) (Elementwise.of_map _ fun v => [v]) (fun _ _ _ _ => trivial)⟩

/-- The encoding of a dimension works value by value. -/
theorem Dim.transform_elementwise [LinearOrder F] (A : Arith F) (d : Dim F) (hd : ValidDim A d) :
    ∃ g, Elementwise (Legal A d) (d.transform A) g := by
  have plain : ∀ (P : Val F → Prop) (ss : List (Stage F)), (∀ s ∈ ss, ∀ e, s ≠ .label e) →
      ∃ g, Elementwise P ((Transformer.pipeline ss).transform A) g := by
    intro P ss hss
    obtain ⟨g, hg⟩ := pipelineTransform_elementwise A ss hss
    obtain ⟨g', hg'⟩ := pipeline_elementwise A hg
    exact ⟨g', hg'.mono fun _ _ => trivial⟩
  cases d with
  | real r =>
    have hp : ∃ ss, r.transformer A = .pipeline ss ∧ ∀ s ∈ ss, ∀ e, s ≠ .label e := by
      unfold RealDim.transformer; simp only; split <;> exact ⟨_, rfl, by simp⟩
    obtain ⟨ss, hs, hl⟩ := hp
    obtain ⟨g, hg⟩ := plain (Legal A (.real r)) ss hl
    refine ⟨g, ?_⟩
    have : Dim.transform A (.real r) = (Transformer.pipeline ss).transform A := by
      funext X; simp only [Dim.transform, Dim.transformer, ok_bind, hs]
    rw [this]; exact hg
  | int r =>
    have hp : ∃ ss, r.transformer A = .pipeline ss ∧ ∀ s ∈ ss, ∀ e, s ≠ .label e := by
      unfold IntDim.transformer; simp only; split <;> exact ⟨_, rfl, by simp⟩
    obtain ⟨ss, hs, hl⟩ := hp
    obtain ⟨g, hg⟩ := plain (Legal A (.int r)) ss hl
    refine ⟨g, ?_⟩
    have : Dim.transform A (.int r) = (Transformer.pipeline ss).transform A := by
      funext X; simp only [Dim.transform, Dim.transformer, ok_bind, hs]
    rw [this]; exact hg
  | cat c =>
    obtain ⟨hne, hnd, hh⟩ := hd
    have red : ∀ t, c.transformer A = .ok t → (∃ g, Elementwise (fun v => v ∈ c.cats) (t.transform A) g) →
        ∃ g, Elementwise (Legal A (.cat c)) (Dim.transform A (.cat c)) g := by
      rintro t ht ⟨g, hg⟩
      refine ⟨g, ?_⟩
      have : Dim.transform A (.cat c) = t.transform A := by
        funext X; simp only [Dim.transform, Dim.transformer, ht, ok_bind]
      rw [this]; exact hg
    have hlab := LabelEnc.fit_valid A hnd hh
    cases hk : c.transform with
    | identity => exact red _ (by simp only [CatDim.transformer, hk]; rfl) (plain _ _ (by simp))
    | string => exact red _ (by simp only [CatDim.transformer, hk]; rfl) (plain _ _ (by simp))
    | onehot =>
      refine red _ (by simp only [CatDim.transformer, hk, OneHot.fit_nodup hnd hne, ok_bind]; rfl) ?_
      exact ⟨_, Elementwise.of_mapE _ _⟩
    | label =>
      refine red _ (by simp only [CatDim.transformer, hk, hlab, ok_bind]; rfl) ?_
      obtain ⟨g1, h1⟩ := LabelEnc.transform_elementwise A
        { mapping := (labelKeys c.cats).zipIdx, inverse := (labelKeys c.cats).zipIdx.map fun p => (p.2, p.1) } hh
      obtain ⟨g2, h2⟩ := pipelineTransform_elementwise A ([] : List (Stage F)) (by simp)
      exact pipeline_elementwise A (h1.comp h2 (fun _ _ _ _ => trivial))
    | normalize =>
      refine red _ (by simp only [CatDim.transformer, hk, hlab, ok_bind]; rfl) ?_
      obtain ⟨g1, h1⟩ := LabelEnc.transform_elementwise A
        { mapping := (labelKeys c.cats).zipIdx, inverse := (labelKeys c.cats).zipIdx.map fun p => (p.2, p.1) } hh
      obtain ⟨g2, h2⟩ := pipelineTransform_elementwise A
        ([.normalize ⟨A.ofInt 0, A.ofInt ((c.cats.length : ℤ) - 1), true⟩] : List (Stage F)) (by simp)
      exact pipeline_elementwise A (h1.comp h2 (fun _ _ _ _ => trivial))

/-! ### Decoding -/

theorem Stage.inverse_elementwise [LinearOrder F] (A : Arith F) (s : Stage F) :
    ∃ g, Elementwise (fun _ => True) (s.inverse A) g := by
  cases s with
  | identity => exact ⟨_, Elementwise.id _⟩
  | string str cast => exact ⟨_, Elementwise.of_mapE _ _⟩
  | logN b =>
    exact ⟨_, (Elementwise.of_mapE _ Val.toNum).comp (Q := fun _ => True)
      (Elementwise.of_map _ fun x => Val.num (logNInverse A b x)) (fun _ _ _ _ => trivial)⟩
  | label e =>
    exact ⟨_, (Elementwise.of_mapE _ Val.toNum).comp (Q := fun _ => True)
      (Elementwise.of_mapE _ _) (fun _ _ _ _ => trivial)⟩
  | normalize n =>
    obtain ⟨g, hg⟩ := n.inverse_elementwise A
    exact ⟨_, hg.nums⟩

theorem pipelineInverseLoop_elementwise [LinearOrder F] (A : Arith F) :
    ∀ ss : List (Stage F), ∃ g, Elementwise (fun _ => True) (pipelineInverseLoop A ss) g
  | [] => ⟨_, Elementwise.id _⟩
  | s :: ss => by
    obtain ⟨g1, h1⟩ := s.inverse_elementwise A
    obtain ⟨g2, h2⟩ := pipelineInverseLoop_elementwise A ss
    exact ⟨_, h1.comp h2 (fun _ _ _ _ => trivial)⟩

theorem pipeline_inverse_elementwise [LinearOrder F] (A : Arith F) (ss : List (Stage F)) :
    ∃ g, Elementwise (fun _ => True) ((Transformer.pipeline ss).inverse A) g := by
  obtain ⟨g, hg⟩ := pipelineInverseLoop_elementwise A ss.reverse
  exact ⟨_, (Elementwise.of_mapE _ scalarRow).comp hg (fun _ _ _ _ => trivial)⟩

theorem unbinarize_elementwise [LinearOrder F] (A : Arith F) (n : Nat) (hn : n ≠ 0) :
    ∃ g, Elementwise (fun r => n = 2 → r.length = 1) (unbinarize A (List.range n)) g := by
  match n, hn with
  | 1, _ => exact ⟨_, Elementwise.of_map _ fun _ => 0⟩
  | 2, _ =>
    refine ⟨fun r => do let y ← pyGet r 0; .ok (if A.half < y then 1 else 0), ?_⟩
    intro X hX Y
    have hX' : ∀ r ∈ X, r.length = 1 := fun r hr => hX r hr rfl
    have : (if X.all (fun r => r.length == 2) then
          mapE (fun r => do let y ← pyGet r 1; .ok (if A.half < y then 1 else 0)) X
        else .ok (X.flatten.map fun y => if A.half < y then 1 else 0)) =
        mapE (fun r => do let y ← pyGet r 0; .ok (if A.half < y then (1 : Nat) else 0)) X := by
      cases X with
      | nil => rfl
      | cons r rs =>
        rw [if_neg (by simp [hX' r (by simp)])]
        symm
        clear hX Y
        generalize r :: rs = X at hX'
        induction X with
        | nil => rfl
        | cons r rs ih =>
          obtain ⟨y, rfl⟩ := List.length_eq_one_iff.1 (hX' r (by simp))
          rw [mapE_cons_ok]
          exact ⟨_, _, rfl, ih (fun r hr => hX' r (by simp [hr])), rfl⟩
    show unbinarize A [0, 1] X = .ok Y ↔ _
    unfold unbinarize
    simp only
    rw [this]
  | n + 3, _ =>
    have : ∀ rows : List (List F), unbinarize A (List.range (n + 3)) rows = mapE (fun r => do
        let k ← npArgmax r
        pyGet (List.range (n + 3)) (min k ((List.range (n + 3)).length - 1))) rows := by
      intro rows
      have hr : List.range (n + 3) = 0 :: 1 :: 2 :: (List.range n).map (· + 3) := by
        simp [List.range_succ_eq_map, List.map_map, Function.comp_def]
      unfold unbinarize
      rw [hr]
    exact ⟨fun r => do
        let k ← npArgmax r
        pyGet (List.range (n + 3)) (min k ((List.range (n + 3)).length - 1)), fun X _ Y => by rw [this]⟩

/-- The decoding of a dimension works row by row. -/
theorem Dim.inverse_elementwise [LinearOrder F] (A : Arith F) (d : Dim F) (hd : ValidDim A d)
    (hs : ∀ c, d = .cat c → c.transform ≠ .string) :
    ∃ g, Elementwise (fun r : List (Val F) => d.transformedSize = 1 → r.length = 1) (d.inverse A) g := by
  have num : ∀ (ss : List (Stage F)) (k : F → Val F) (P : List (Val F) → Prop),
      ∃ g, Elementwise P (fun rows => do
        let vs ← (Transformer.pipeline ss).inverse A rows
        let xs ← mapE Val.toNum vs
        .ok (xs.map k)) g := by
    intro ss k P
    obtain ⟨g, hg⟩ := pipeline_inverse_elementwise A ss
    exact ⟨_, (hg.mono fun _ _ => trivial).comp (Q := fun _ => True)
      ((Elementwise.of_mapE _ Val.toNum).comp (Q := fun _ => True) (Elementwise.of_map _ k)
        (fun _ _ _ _ => trivial)) (fun _ _ _ _ => trivial)⟩
  cases d with
  | real r =>
    have hp : ∃ ss, r.transformer A = .pipeline ss := by
      unfold RealDim.transformer; simp only; split <;> exact ⟨_, rfl⟩
    obtain ⟨ss, hs⟩ := hp
    obtain ⟨g, hg⟩ := num ss (fun x => .num (r.cast (npClip r.low r.high x)))
      (fun row => (Dim.real r).transformedSize = 1 → row.length = 1)
    refine ⟨g, ?_⟩
    intro X hX Y
    rw [← hg X hX Y]
    simp only [Dim.inverse, RealDim.inverse, hs]
  | int r =>
    have hp : ∃ ss, r.transformer A = .pipeline ss := by
      unfold IntDim.transformer; simp only; split <;> exact ⟨_, rfl⟩
    obtain ⟨ss, hs⟩ := hp
    obtain ⟨g, hg⟩ := num ss (fun x => .num (A.ofInt (r.wrap (A.round (npClip r.low r.high x)))))
      (fun row => (Dim.int r).transformedSize = 1 → row.length = 1)
    refine ⟨g, ?_⟩
    intro X hX Y
    rw [← hg X hX Y]
    simp only [Dim.inverse, IntDim.inverse, hs]
  | cat c =>
    have hs := hs c rfl
    obtain ⟨hne, hnd, hh⟩ := hd
    have red : ∀ t, c.transformer A = .ok t →
        (c.transform ≠ .identity → ∀ rows vs, t.inverse A rows = .ok vs → ∀ v ∈ vs, v ∈ c.cats) →
        (∃ g, Elementwise (fun r : List (Val F) => (Dim.cat c).transformedSize = 1 → r.length = 1)
          (t.inverse A) g) →
        ∃ g, Elementwise (fun r : List (Val F) => (Dim.cat c).transformedSize = 1 → r.length = 1)
          (Dim.inverse A (.cat c)) g := by
      rintro t ht hin ⟨g, hg⟩
      refine ⟨g, fun X hX Y => ?_⟩
      rw [← hg X hX Y]
      simp only [Dim.inverse, CatDim.inverse, ht, ok_bind, bind_eq_ok]
      by_cases hid : c.transform = .identity
      · simp only [hid, Except.ok.injEq]
        constructor
        · rintro ⟨vs, h, rfl⟩; exact h
        · intro h; exact ⟨Y, h, rfl⟩
      · have hnp : ∀ vs, t.inverse A X = .ok vs → npArray A vs = .ok vs := fun vs h =>
          (hh.subset (hin hid X vs h)).npArray
        have hm : ∀ vs, (match c.transform with
            | .identity => Except.ok vs
            | _ => npArray A vs) = npArray A vs := by
          intro vs; cases hk : c.transform <;> first | rfl | exact absurd hk hid
        constructor
        · rintro ⟨vs, h, h'⟩
          replace h' := (hm vs).symm.trans h'
          rw [hnp vs h] at h'
          rw [h, h']
        · intro h; exact ⟨Y, h, (hm Y).trans (hnp Y h)⟩
    have hlab := LabelEnc.fit_valid A hnd hh
    cases hk : c.transform with
    | identity =>
      refine red (.pipeline [.identity]) (by simp only [CatDim.transformer, hk]) (fun h => absurd hk h) ?_
      obtain ⟨g, hg⟩ := pipeline_inverse_elementwise A ([.identity] : List (Stage F))
      exact ⟨g, hg.mono fun _ _ => trivial⟩
    | string => exact absurd hk hs
    | onehot =>
      have hfit := OneHot.fit_nodup hnd hne
      refine red _ (by simp only [CatDim.transformer, hk, hfit, ok_bind]; rfl) ?_ ?_
      · intro _ rows vs h
        simp only [Transformer.inverse, bind_eq_ok] at h
        obtain ⟨rs, _, h⟩ := h
        exact OneHot.inverse_mem hfit h
      · obtain ⟨g, hg⟩ := unbinarize_elementwise A c.cats.length (by simpa using hne)
        refine ⟨_, (Elementwise.of_mapE _ (mapE Val.toNum)).comp
          (hg.comp (Q := fun _ => True) (Elementwise.of_mapE _ (dictGet _)) (fun _ _ _ _ => trivial)) ?_⟩
        intro r y h1 h2 h3
        rw [mapE_length h2]
        exact h1 (by simp [Dim.transformedSize, hk, h3])
    | label =>
      refine red _ (by simp only [CatDim.transformer, hk, hlab, ok_bind]; rfl) ?_ ?_
      · intro _ rows vs h
        simp only [Transformer.inverse, pipelineInverse, List.reverse_cons, List.reverse_nil, List.nil_append,
          pipelineInverseLoop, Stage.inverse, bind_eq_ok, Except.ok.injEq] at h
        obtain ⟨_, _, ws, ⟨xs, _, h⟩, rfl⟩ := h
        exact LabelEnc.inverse_mem hnd hh hlab h
      · obtain ⟨g, hg⟩ := pipeline_inverse_elementwise A (_ : List (Stage F))
        exact ⟨g, hg.mono fun _ _ => trivial⟩
    | normalize =>
      refine red _ (by simp only [CatDim.transformer, hk, hlab, ok_bind]; rfl) ?_ ?_
      · intro _ rows vs h
        simp only [Transformer.inverse, pipelineInverse, List.reverse_cons, List.reverse_nil, List.nil_append,
          List.cons_append, pipelineInverseLoop, bind_eq_ok, Except.ok.injEq] at h
        obtain ⟨_, _, ws, _, us, h, rfl⟩ := h
        simp only [Stage.inverse, bind_eq_ok] at h
        obtain ⟨xs, _, h⟩ := h
        exact LabelEnc.inverse_mem hnd hh hlab h
      · obtain ⟨g, hg⟩ := pipeline_inverse_elementwise A (_ : List (Stage F))
        exact ⟨g, hg.mono fun _ _ => trivial⟩

/-! ### Rows -/

theorem mapE_at {g : α → Except PyErr β} {X : List α} {Y : List β} (h : mapE g X = .ok Y) {i : Nat} {x : α}
    (hx : X[i]? = some x) : ∃ y, Y[i]? = some y ∧ g x = .ok y := by
  have h' := List.forall₂_iff_get.1 (mapE_eq_ok.1 h)
  obtain ⟨hi, rfl⟩ := List.getElem?_eq_some_iff.1 hx
  have hi' : i < Y.length := by rw [mapE_length h]; exact hi
  exact ⟨Y[i], List.getElem?_eq_getElem hi', h'.2 i hi hi'⟩

theorem mapE_of_at {g : α → Except PyErr β} {X : List α} {Y : List β} (hl : X.length = Y.length)
    (h : ∀ (i : Nat) x y, X[i]? = some x → Y[i]? = some y → g x = .ok y) : mapE g X = .ok Y := by
  rw [mapE_eq_ok, List.forall₂_iff_get]
  refine ⟨hl, fun i h1 h2 => ?_⟩
  exact h i _ _ (List.getElem?_eq_getElem h1) (List.getElem?_eq_getElem h2)

/-- Columns computed by `hs` from the rows of `X`. -/
def ColumnsOf (hs : List (α → Except PyErr β)) (X : List α) (cols : List (List β)) : Prop :=
  List.Forall₂ (fun h c => mapE h X = .ok c) hs cols

/-- If every row can be computed, so can every column. -/
theorem columnsOf_of_rows {hs : List (α → Except PyErr β)} {X : List α} {rows : List (List β)}
    (h : mapE (fun x => mapE (fun k => k x) hs) X = .ok rows) : ∃ cols, ColumnsOf hs X cols := by
  have hall : ∀ k ∈ hs, ∃ c, mapE k X = .ok c := by
    intro k hk
    cases hm : mapE k X with
    | ok c => exact ⟨c, rfl⟩
    | error e =>
      exfalso
      obtain ⟨x, hx, e', he'⟩ := mapE_error_iff.1 ⟨e, hm⟩
      obtain ⟨i, hi⟩ := List.mem_iff_getElem?.1 hx
      obtain ⟨r, _, hr⟩ := mapE_at h hi
      obtain ⟨j, hj⟩ := List.mem_iff_getElem?.1 hk
      obtain ⟨y, _, hy⟩ := mapE_at hr hj
      rw [he'] at hy
      cases hy
  clear h
  induction hs with
  | nil => exact ⟨[], .nil⟩
  | cons k ks ih =>
    obtain ⟨c, hc⟩ := hall k (by simp)
    obtain ⟨cs, hcs⟩ := ih (fun k hk => hall k (by simp [hk]))
    exact ⟨c :: cs, .cons hc hcs⟩

theorem columnsOf_length {hs : List (α → Except PyErr β)} {X : List α} {cols : List (List β)}
    (h : ColumnsOf hs X cols) : ∀ c ∈ cols, c.length = X.length := by
  intro c hc
  obtain ⟨k, _, hk⟩ := forall₂_mem_right h hc
  exact mapE_length hk

/-- Transposing the columns gives the rows. -/
theorem transpose_columnsOf {hs : List (α → Except PyErr β)} {X : List α} {cols : List (List β)}
    (hne : hs ≠ []) (h : ColumnsOf hs X cols) :
    ∃ rows, transposeListArray cols = .ok rows ∧ mapE (fun x => mapE (fun k => k x) hs) X = .ok rows := by
  have hcne : cols ≠ [] := by
    intro h0; rw [h0] at h; cases h; exact hne rfl
  obtain ⟨rows, hr, hl⟩ := transpose_ok hcne (columnsOf_length h)
  refine ⟨rows, hr, mapE_of_at hl.symm ?_⟩
  intro i x r hx hri
  have hrow : mapE (fun col => pyGet col i) cols = .ok r := by
    cases cols with
    | nil => exact absurd rfl hcne
    | cons c cs =>
      have hi : i < c.length := by
        rw [columnsOf_length h c (by simp)]
        exact (List.getElem?_eq_some_iff.1 hx).1
      obtain ⟨y, hy, hy'⟩ := mapE_at (show mapE _ (List.range c.length) = .ok rows from hr)
        (i := i) (x := i) (by simp [hi])
      rw [hri] at hy
      injection hy with hy
      rw [hy]; exact hy'
  rw [mapE_eq_ok] at hrow ⊢
  unfold ColumnsOf at h
  rw [List.forall₂_iff_get] at h hrow ⊢
  refine ⟨by rw [h.1, hrow.1], fun j h1 h2 => ?_⟩
  have hj : j < cols.length := by rw [← h.1]; exact h1
  have a1 := h.2 j h1 hj
  have a2 := hrow.2 j hj h2
  obtain ⟨y, hy, hy'⟩ := mapE_at a1 hx
  have a2' := pyGet_eq_ok.1 a2
  rw [hy] at a2'
  injection a2' with a2'
  rw [← a2']; exact hy'

/-- Gluing the blocks gives the rows. -/
theorem glue_columnsOf {hs : List (α → Except PyErr (List β))} {X : List α}
    {blocks : List (List (List β))} (h : ColumnsOf hs X blocks) :
    mapE (fun x => do let parts ← mapE (fun k => k x) hs; .ok parts.flatten) X =
      .ok (blocks.foldr Space.glue (List.replicate X.length [])) := by
  induction h with
  | nil =>
    simp only [mapE_nil, ok_bind, List.flatten_nil, List.foldr_nil, mapE_ok_fun]
    congr 1
    exact List.map_const'
  | @cons k b ks bs h1 h2 ih =>
    rw [List.foldr_cons]
    have hb : b.length = X.length := mapE_length h1
    have hlen := mapE_length ih
    generalize bs.foldr Space.glue (List.replicate X.length []) = rest at ih hlen ⊢
    refine mapE_of_at ?_ ?_
    · unfold Space.glue
      rw [List.length_zipWith, hb, hlen, min_self]
    · intro i x r hx hr
      obtain ⟨y, hy, hy'⟩ := mapE_at h1 hx
      obtain ⟨z, hz, hz'⟩ := mapE_at ih hx
      unfold Space.glue at hr
      rw [List.getElem?_zipWith, hy, hz] at hr
      simp only [Option.some.injEq] at hr
      subst hr
      rw [bind_eq_ok] at hz' ⊢
      obtain ⟨ps, hps, hz'⟩ := hz'
      injection hz' with hz'
      exact ⟨y :: ps, mapE_cons_ok.2 ⟨y, ps, hy', hps, rfl⟩, by rw [List.flatten_cons, hz']⟩

/-- Decoding is done column by column, each from the rows. -/
theorem inverseCols_columnsOf [LinearOrder F] (A : Arith F) : ∀ (dims : List (Dim F)) (start : Nat),
    (∀ d ∈ dims, ValidDim A d) → (∀ c, Dim.cat c ∈ dims → c.transform ≠ .string) →
    ∃ hs : List (List (Val F) → Except PyErr (Val F)), hs.length = dims.length ∧
      ∀ Xt cols, Space.inverseCols A dims start Xt = .ok cols ↔ ColumnsOf hs Xt cols
  | [], start, _, _ => by
      refine ⟨[], rfl, fun Xt cols => ?_⟩
      simp only [Space.inverseCols, Except.ok.injEq]
      constructor
      · rintro rfl; exact .nil
      · intro h; cases h; rfl
  | d :: ds, start, hv, hs => by
      obtain ⟨g, hg⟩ := d.inverse_elementwise A (hv d (by simp)) (fun c hc => hs c (by simp [hc]))
      obtain ⟨ks, hk1, hk2⟩ := inverseCols_columnsOf A ds (start + d.transformedSize)
        (fun x hx => hv x (by simp [hx])) (fun c hc => hs c (by simp [hc]))
      obtain ⟨g0, hg0⟩ : ∃ g0, Elementwise (fun _ => True) (Space.block (F := F) start d.transformedSize) g0 := by
        unfold Space.block
        split
        · exact ⟨_, Elementwise.of_mapE _ _⟩
        · exact ⟨_, Elementwise.of_map _ _⟩
      have hcomp : ∀ Xt c, (∃ b, Space.block start d.transformedSize Xt = .ok b ∧ d.inverse A b = .ok c) ↔
          mapE (fun r => do let y ← g0 r; g y) Xt = .ok c := by
        intro Xt c
        rw [← mapE_ok_comp]
        have hw : ∀ b, Space.block start d.transformedSize Xt = .ok b →
            ∀ r ∈ b, d.transformedSize = 1 → r.length = 1 := by
          intro b hb r hr h1
          rw [h1] at hb
          exact block_width_one hb r hr
        constructor
        · rintro ⟨b, h1, h2⟩
          exact ⟨b, (hg0 Xt (fun _ _ => trivial) b).1 h1, (hg b (hw b h1) c).1 h2⟩
        · rintro ⟨b, h1, h2⟩
          have h1' := (hg0 Xt (fun _ _ => trivial) b).2 h1
          exact ⟨b, h1', (hg b (hw b h1') c).2 h2⟩
      refine ⟨(fun r => do let y ← g0 r; g y) :: ks, by simp [hk1], fun Xt cols => ?_⟩
      simp only [Space.inverseCols, bind_eq_ok, Except.ok.injEq]
      constructor
      · rintro ⟨b, hb, c, hc, cs, hcs, rfl⟩
        exact .cons ((hcomp Xt c).1 ⟨b, hb, hc⟩) ((hk2 Xt cs).1 hcs)
      · intro h
        cases h with
        | cons h1 h2 =>
          obtain ⟨b, hb, hc⟩ := (hcomp Xt _).2 h1
          exact ⟨b, hb, _, hc, _, (hk2 Xt _).2 h2, rfl⟩

/-- `Space.inverse_transform` works row by row. -/
theorem inverseTransform_rowwise [LinearOrder F] (A : Arith F) (dims : List (Dim F)) (hne : dims ≠ [])
    (hv : ∀ d ∈ dims, ValidDim A d) (hs : ∀ c, Dim.cat c ∈ dims → c.transform ≠ .string) :
    ∃ f, ∀ Xt X, Xt ≠ [] → (Space.inverseTransform A dims Xt = .ok X ↔ mapE f Xt = .ok X) := by
  obtain ⟨ks, hk1, hk2⟩ := inverseCols_columnsOf A dims 0 hv hs
  have hkne : ks ≠ [] := by
    intro h0; rw [h0] at hk1; exact hne (List.length_eq_zero_iff.1 hk1.symm)
  refine ⟨fun r => mapE (fun k => k r) ks, fun Xt X hX => ?_⟩
  simp only [Space.inverseTransform, bind_eq_ok]
  have hemp : (Xt.isEmpty && !dims.isEmpty) = false := by simp [hX]
  simp only [hemp, Bool.false_eq_true, if_false]
  constructor
  · rintro ⟨cols, h1, h2⟩
    obtain ⟨rows, h3, h4⟩ := transpose_columnsOf hkne ((hk2 Xt cols).1 h1)
    rw [h2] at h3
    injection h3 with h3
    rw [h3]; exact h4
  · intro h
    obtain ⟨cols, hc⟩ := columnsOf_of_rows h
    obtain ⟨rows, h3, h4⟩ := transpose_columnsOf hkne hc
    rw [h] at h4
    injection h4 with h4
    exact ⟨cols, (hk2 Xt cols).2 hc, by rw [h3, h4]⟩

/-- The blocks of the encoded matrix are computed from the points. -/
theorem blocks_columnsOf [LinearOrder F] (A : Arith F) : ∀ (dims : List (Dim F)) (start : Nat),
    (∀ d ∈ dims, ValidDim A d) →
    ∃ hs : List (Point F → Except PyErr (List (Val F))), hs.length = dims.length ∧
      ∀ X : List (Point F), (∀ p ∈ X, List.Forall₂ (Legal A) dims (p.drop start)) → ∀ blocks,
        (mapE (fun p => Dim.transform A p.1 p.2)
          (dims.zip ((List.range' start dims.length).map fun j => X.map fun p => p.getD j (.obj 0))) =
            .ok blocks ↔ ColumnsOf hs X blocks)
  | [], start, _ => by
      refine ⟨[], rfl, fun X _ blocks => ?_⟩
      simp only [List.zip_nil_left, mapE_nil, Except.ok.injEq]
      constructor
      · rintro rfl; exact .nil
      · intro h; cases h; rfl
  | d :: ds, start, hv => by
      obtain ⟨g, hg⟩ := d.transform_elementwise A (hv d (by simp))
      obtain ⟨ks, hk1, hk2⟩ := blocks_columnsOf A ds (start + 1) (fun x hx => hv x (by simp [hx]))
      refine ⟨(fun p => g (p.getD start (.obj 0))) :: ks, by simp [hk1], fun X hX blocks => ?_⟩
      have hX' : ∀ p ∈ X, List.Forall₂ (Legal A) ds (p.drop (start + 1)) ∧
          Legal A d (p.getD start (.obj 0)) := by
        intro p hp
        have h := hX p hp
        have hlt : start < p.length := by
          by_contra hc
          rw [List.drop_eq_nil_of_le (by omega)] at h
          cases h
        rw [List.drop_eq_getElem_cons hlt] at h
        cases h with
        | cons h1 h2 =>
          refine ⟨h2, ?_⟩
          rw [List.getD_eq_getElem?_getD, List.getElem?_eq_getElem hlt]
          exact h1
      have hcol : ∀ b, d.transform A (X.map fun p => p.getD start (.obj 0)) = .ok b ↔
          mapE (fun p => g (p.getD start (.obj 0))) X = .ok b := by
        intro b
        rw [hg _ (by
          intro v hv
          obtain ⟨p, hp, rfl⟩ := List.mem_map.1 hv
          exact (hX' p hp).2) b, mapE_map]
      rw [List.length_cons, List.range'_succ, List.map_cons, List.zip_cons_cons, mapE_cons_ok]
      constructor
      · rintro ⟨b, bs, h1, h2, rfl⟩
        exact .cons ((hcol b).1 h1) ((hk2 X (fun p hp => (hX' p hp).1) bs).1 h2)
      · intro h
        cases h with
        | cons h1 h2 =>
          exact ⟨_, _, (hcol _).2 h1, (hk2 X (fun p hp => (hX' p hp).1) _).2 h2, rfl⟩

/-- Encoded points contain no strings (or no numbers), so that nothing is converted. -/
theorem blocks_homog [LinearOrder F] {A : Arith F} {dims : List (Dim F)}
    (hmix : (∀ d ∈ dims, YieldsNoStr d) ∨ (∀ d ∈ dims, YieldsNoNum d)) {cols : List (List (Val F))}
    (hcols : List.Forall₂ (fun d col => ∀ v ∈ col, Legal A d v) dims cols) {blocks : List (List (List (Val F)))}
    (h : mapE (fun p => Dim.transform A p.1 p.2) (dims.zip cols) = .ok blocks) :
    (∀ b ∈ blocks, ∀ r ∈ b, ∀ v ∈ r, v.isStr = false) ∨ (∀ b ∈ blocks, ∀ r ∈ b, ∀ v ∈ r, v.isNum = false) := by
  have hall : ∀ b ∈ blocks, ∃ d ∈ dims, ∃ col, (∀ v ∈ col, Legal A d v) ∧ d.transform A col = .ok b := by
    intro b hb
    obtain ⟨p, hp, hpb⟩ := mapE_mem h hb
    obtain ⟨i, hi, rfl⟩ := List.mem_iff_getElem.1 hp
    simp only [List.getElem_zip] at hpb
    refine ⟨_, List.getElem_mem _, _, ?_, hpb⟩
    exact (List.forall₂_iff_get.1 hcols).2 i (by simp at hi; omega) (by simp at hi; omega)
  refine hmix.imp ?_ ?_
  · intro hm b hb
    obtain ⟨d, hd, col, hc, ht⟩ := hall b hb
    exact Dim.transform_noStr (hm d hd) hc ht
  · intro hm b hb
    obtain ⟨d, hd, col, hc, ht⟩ := hall b hb
    exact Dim.transform_noNum (hm d hd) hc ht

/-- `Space.transform` works point by point. -/
theorem transform_rowwise [LinearOrder F] (A : Arith F) (dims : List (Dim F)) (hne : dims ≠ [])
    (hv : ∀ d ∈ dims, ValidDim A d) (hmix : (∀ d ∈ dims, YieldsNoStr d) ∨ (∀ d ∈ dims, YieldsNoNum d)) :
    ∃ f, ∀ X M, X ≠ [] → (∀ p ∈ X, InSpace A dims p) →
      (Space.transform A dims X = .ok M ↔ mapE f X = .ok M) := by
  obtain ⟨ks, hk1, hk2⟩ := blocks_columnsOf A dims 0 hv
  refine ⟨fun p => do let parts ← mapE (fun k => k p) ks; .ok parts.flatten, fun X M hX hin => ?_⟩
  have hlen : ∀ p ∈ X, p.length = dims.length := fun p hp => (hin p hp).length_eq.symm
  have hcols := columns_forall₂ (P := Legal A) hin
  have hk3 := hk2 X (fun p hp => by rw [List.drop_zero]; exact hin p hp)
  rw [← List.range_eq_range'] at hk3
  have hemp : (X.isEmpty || dims.isEmpty) = false := by simp [hX, hne]
  simp only [Space.transform, columns_ok hlen, ok_bind, bind_eq_ok, hemp, Bool.false_eq_true, if_false,
    Except.ok.injEq]
  constructor
  · rintro ⟨blocks, h1, rfl⟩
    rw [hstack_homog (blocks_homog hmix (hcols.imp fun _ _ h => h.2) h1)]
    exact glue_columnsOf ((hk3 blocks).1 h1)
  · intro h
    obtain ⟨rows, h1, h2⟩ := mapE_ok_comp.2 h
    obtain ⟨blocks, hb⟩ := columnsOf_of_rows h1
    have h3 := (hk3 blocks).2 hb
    refine ⟨blocks, h3, ?_⟩
    rw [hstack_homog (blocks_homog hmix (hcols.imp fun _ _ h => h.2) h3)]
    have := glue_columnsOf hb
    rw [h] at this
    injection this with this
    exact this.symm

end Skopt

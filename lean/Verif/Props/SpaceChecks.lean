import Verif.Lemmas.Checks
import Verif.Props.SpaceMembership

/-!
# C06, C07, C09 – distances, acceptance of points, equality of spaces
-/

namespace Skopt

variable {F : Type}

/-! ## C06 -/

theorem absDiff_exact (x y : ℝ) : absDiff exact x y = |x - y| := by
  unfold absDiff
  simp only [exact, Int.cast_zero]
  split
  · rename_i h; rw [abs_of_neg h]; ring
  · rename_i h; rw [abs_of_nonneg (not_lt.1 h)]

/-- Distance of one component, as a specification: absolute difference of numbers, 0/1 for
categories. -/
def CompDist : Dim ℝ → Val ℝ → Val ℝ → ℝ → Prop
  | .cat _, a, b, r => (a = b ∧ r = 0) ∨ (a ≠ b ∧ r = 1)
  | _, .num x, .num y, r => r = |x - y|
  | _, _, _, _ => False

theorem Dim.distance_within {d : Dim ℝ} {a b : Val ℝ} (ha : Within d a) (hb : Within d b) :
    ∃ r, d.distance exact a b = .ok r ∧ CompDist d a b r := by
  have h1 := Dim.contains_true.2 ha
  have h2 := Dim.contains_true.2 hb
  unfold Dim.distance
  rw [h1, h2]
  cases d with
  | cat c =>
    by_cases hab : a = b
    · exact ⟨0, by simp [hab, exact], Or.inl ⟨hab, rfl⟩⟩
    · exact ⟨1, by simp [hab, exact], Or.inr ⟨hab, rfl⟩⟩
  | real c =>
    obtain ⟨x, rfl, _⟩ := ha
    obtain ⟨y, rfl, _⟩ := hb
    exact ⟨|x - y|, by simp [Val.toNum, absDiff_exact], rfl⟩
  | int c =>
    obtain ⟨x, rfl, _⟩ := ha
    obtain ⟨y, rfl, _⟩ := hb
    exact ⟨|x - y|, by simp [Val.toNum, absDiff_exact], rfl⟩

/-- Distance of two points as a specification: the sum of component distances. -/
inductive PointDist : List (Dim ℝ) → Point ℝ → Point ℝ → ℝ → Prop
  | nil : PointDist [] [] [] 0
  | cons {d ds a as b bs r s} : CompDist d a b r → PointDist ds as bs s →
      PointDist (d :: ds) (a :: as) (b :: bs) (r + s)

theorem Space.distanceFrom_within {dims : List (Dim ℝ)} {a b : Point ℝ}
    (ha : List.Forall₂ Within dims a) (hb : List.Forall₂ Within dims b) (acc : ℝ) :
    ∃ r, Space.distanceFrom exact acc dims a b = .ok (acc + r) ∧ PointDist dims a b r := by
  induction ha generalizing b acc with
  | nil => cases hb; exact ⟨0, by simp [Space.distanceFrom], .nil⟩
  | @cons d x ds xs h1 _ ih =>
    cases hb with
    | @cons _ y _ ys g1 g2 =>
    obtain ⟨r, hr, hc⟩ := Dim.distance_within h1 g1
    obtain ⟨s, hs, hp⟩ := ih g2 (acc + r)
    refine ⟨r + s, ?_, .cons hc hp⟩
    have e : Space.distanceFrom exact acc (d :: ds) (x :: xs) (y :: ys) =
      (d.distance exact x y >>= fun z => Space.distanceFrom exact (acc + z) ds xs ys) := rfl
    rw [e, hr, ok_bind, hs, add_assoc]

theorem CompDist.nonneg {d : Dim ℝ} {a b : Val ℝ} {r : ℝ} (h : CompDist d a b r) : 0 ≤ r := by
  cases d with
  | cat c => rcases h with ⟨_, rfl⟩ | ⟨_, rfl⟩ <;> norm_num
  | real c => cases a <;> cases b <;> simp [CompDist] at h; rw [h]; exact abs_nonneg _
  | int c => cases a <;> cases b <;> simp [CompDist] at h; rw [h]; exact abs_nonneg _

theorem CompDist.zero_iff {d : Dim ℝ} {a b : Val ℝ} {r : ℝ} (h : CompDist d a b r) :
    r = 0 ↔ a = b := by
  cases d with
  | cat c => rcases h with ⟨h, rfl⟩ | ⟨h, rfl⟩ <;> simp [h]
  | real c => cases a <;> cases b <;> simp [CompDist] at h; simp [h, sub_eq_zero]
  | int c => cases a <;> cases b <;> simp [CompDist] at h; simp [h, sub_eq_zero]

theorem CompDist.symm {d : Dim ℝ} {a b : Val ℝ} {r : ℝ} (h : CompDist d a b r) :
    CompDist d b a r := by
  cases d with
  | cat c =>
    rcases h with ⟨h, rfl⟩ | ⟨h, rfl⟩
    · exact Or.inl ⟨h.symm, rfl⟩
    · exact Or.inr ⟨Ne.symm h, rfl⟩
  | real c => cases a <;> cases b <;> simp [CompDist] at h ⊢; rw [h, abs_sub_comm]
  | int c => cases a <;> cases b <;> simp [CompDist] at h ⊢; rw [h, abs_sub_comm]

theorem CompDist.unique {d : Dim ℝ} {a b : Val ℝ} {r s : ℝ} (h : CompDist d a b r)
    (h' : CompDist d a b s) : r = s := by
  cases d with
  | cat c => rcases h with ⟨h, rfl⟩ | ⟨h, rfl⟩ <;> rcases h' with ⟨h', rfl⟩ | ⟨h', rfl⟩ <;> simp_all
  | real c => cases a <;> cases b <;> simp [CompDist] at h h'; rw [h, h']
  | int c => cases a <;> cases b <;> simp [CompDist] at h h'; rw [h, h']

theorem CompDist.triangle {d : Dim ℝ} {a b c : Val ℝ} {r s t : ℝ} (h1 : CompDist d a b r)
    (h2 : CompDist d b c s) (h3 : CompDist d a c t) : t ≤ r + s := by
  cases d with
  | cat _ =>
    rcases h3 with ⟨h3, rfl⟩ | ⟨h3, rfl⟩
    · linarith [h1.nonneg, h2.nonneg]
    · rcases h1 with ⟨rfl, rfl⟩ | ⟨_, rfl⟩
      · rcases h2 with ⟨rfl, rfl⟩ | ⟨_, rfl⟩
        · exact absurd rfl h3
        · norm_num
      · linarith [h2.nonneg]
  | real _ =>
    cases a <;> cases b <;> cases c <;> simp [CompDist] at h1 h2 h3
    rw [h1, h2, h3]; exact abs_sub_le _ _ _
  | int _ =>
    cases a <;> cases b <;> cases c <;> simp [CompDist] at h1 h2 h3
    rw [h1, h2, h3]; exact abs_sub_le _ _ _

theorem PointDist.nonneg {ds : List (Dim ℝ)} {a b : Point ℝ} {r : ℝ} (h : PointDist ds a b r) :
    0 ≤ r := by
  induction h with
  | nil => exact le_rfl
  | cons h1 _ ih => exact add_nonneg h1.nonneg ih

theorem PointDist.zero_iff {ds : List (Dim ℝ)} {a b : Point ℝ} {r : ℝ} (h : PointDist ds a b r) :
    r = 0 ↔ a = b := by
  induction h with
  | nil => simp
  | cons h1 h2 ih =>
    rw [add_eq_zero_iff_of_nonneg h1.nonneg h2.nonneg, h1.zero_iff, ih, List.cons.injEq]

theorem PointDist.symm {ds : List (Dim ℝ)} {a b : Point ℝ} {r : ℝ} (h : PointDist ds a b r) :
    PointDist ds b a r := by
  induction h with
  | nil => exact .nil
  | cons h1 _ ih => exact .cons h1.symm ih

theorem PointDist.unique {ds : List (Dim ℝ)} {a b : Point ℝ} {r s : ℝ} (h : PointDist ds a b r)
    (h' : PointDist ds a b s) : r = s := by
  induction h generalizing s with
  | nil => cases h'; rfl
  | cons h1 _ ih => cases h' with | cons g1 g2 => rw [h1.unique g1, ih g2]

theorem PointDist.triangle {ds : List (Dim ℝ)} {a b c : Point ℝ} {r s t : ℝ}
    (h1 : PointDist ds a b r) (h2 : PointDist ds b c s) (h3 : PointDist ds a c t) : t ≤ r + s := by
  induction h1 generalizing c s t with
  | nil => cases h2; cases h3; simp
  | cons g1 _ ih =>
    cases h2 with
    | cons k1 k2 =>
      cases h3 with
      | cons l1 l2 =>
        have := g1.triangle k1 l1
        have := ih k2 l2
        linarith

/-- **C06 (metric).** On points inside the space, `distance` succeeds, is the sum of the component
distances, non-negative, zero exactly for equal points, symmetric, and satisfies the triangle
inequality (exact arithmetic). -/
theorem C06_distance_is_metric (dims : List (Dim ℝ)) (a b c : Point ℝ)
    (ha : List.Forall₂ Within dims a) (hb : List.Forall₂ Within dims b)
    (hc : List.Forall₂ Within dims c) :
    ∃ ab ba ac bc : ℝ, Space.distance exact dims a b = .ok ab ∧
      Space.distance exact dims b a = .ok ba ∧ Space.distance exact dims a c = .ok ac ∧
      Space.distance exact dims b c = .ok bc ∧
      PointDist dims a b ab ∧ 0 ≤ ab ∧ (ab = 0 ↔ a = b) ∧ ab = ba ∧ ac ≤ ab + bc := by
  have key : ∀ {x y : Point ℝ}, List.Forall₂ Within dims x → List.Forall₂ Within dims y →
      ∃ r, Space.distance exact dims x y = .ok r ∧ PointDist dims x y r := by
    intro x y hx hy
    obtain ⟨r, h1, h2⟩ := Space.distanceFrom_within hx hy 0
    refine ⟨r, ?_, h2⟩
    unfold Space.distance
    have : exact.ofInt 0 = (0 : ℝ) := by simp [exact]
    rw [this, h1, zero_add]
  obtain ⟨ab, h1, p1⟩ := key ha hb
  obtain ⟨ba, h2, p2⟩ := key hb ha
  obtain ⟨ac, h3, p3⟩ := key ha hc
  obtain ⟨bc, h4, p4⟩ := key hb hc
  exact ⟨ab, ba, ac, bc, h1, h2, h3, h4, p1, p1.nonneg, p1.zero_iff, p1.symm.unique p2,
    p1.triangle p4 p3⟩

/-- **C06 (rejection).** For every arithmetic: two points with one component per dimension, one of
which has a component outside its dimension, are rejected. -/
theorem C06_distance_rejects [LinearOrder F] (A : Arith F) (dims : List (Dim F)) (a b : Point F)
    (ha : a.length = dims.length) (hb : b.length = dims.length)
    (h : ¬ (List.Forall₂ Within dims a ∧ List.Forall₂ Within dims b)) :
    ∃ e, Space.distance A dims a b = .error e ∧ (e = .runtimeError ∨ e = .typeError) := by
  unfold Space.distance
  generalize A.ofInt 0 = acc
  induction dims generalizing a b acc with
  | nil =>
    rw [List.length_eq_zero_iff.1 ha, List.length_eq_zero_iff.1 hb] at h
    exact absurd ⟨.nil, .nil⟩ h
  | cons d ds ih =>
    cases a with
    | nil => simp at ha
    | cons x xs =>
    cases b with
    | nil => simp at hb
    | cons y ys =>
    have e : Space.distanceFrom A acc (d :: ds) (x :: xs) (y :: ys) =
      (d.distance A x y >>= fun z => Space.distanceFrom A (A.add acc z) ds xs ys) := rfl
    rw [e]
    by_cases hx : Within d x
    · by_cases hy : Within d y
      · have hrec : ∀ z, ∃ e, Space.distanceFrom A (A.add acc z) ds xs ys = .error e ∧
            (e = .runtimeError ∨ e = .typeError) := fun z =>
          ih xs ys (by simpa using ha) (by simpa using hb)
            (fun hh => h ⟨.cons hx hh.1, .cons hy hh.2⟩) _
        cases hd : d.distance A x y with
        | ok z => rw [ok_bind]; exact hrec z
        | error err =>
          exfalso
          unfold Dim.distance at hd
          rw [Dim.contains_true.2 hx, Dim.contains_true.2 hy] at hd
          cases d with
          | cat c => simp at hd
          | real c =>
            obtain ⟨u, rfl, _⟩ := hx; obtain ⟨v, rfl, _⟩ := hy
            simp [Val.toNum] at hd
          | int c =>
            obtain ⟨u, rfl, _⟩ := hx; obtain ⟨v, rfl, _⟩ := hy
            simp [Val.toNum] at hd
      · unfold Dim.distance
        rw [Dim.contains_true.2 hx]
        rcases Dim.contains_ok_false hy with h | h <;> rw [h] <;> simp
    · unfold Dim.distance
      rcases Dim.contains_ok_false hx with h | h <;> rw [h] <;> simp

/-- Non-vacuity of C06: a concrete distance in the mixed example space and a rejected point. -/
example : Space.distance ratArith exDims [.num 5, .num (-2), .str "b"] [.num 7, .num 1, .str "a"]
      = .ok 6 ∧
    Space.distance ratArith exDims [.num 5, .num (-2), .str "b"] [.num 11, .num 1, .str "a"]
      = .error .runtimeError := by
  constructor <;> decide +kernel

/-- Meets the hypotheses of `C06_distance_is_metric`. -/
example : ∃ a b c : Point ℝ, a ≠ b ∧ b ≠ c ∧ List.Forall₂ Within
    [.real ⟨0, 10, .uniform, 10, .normalize, none, id⟩,
     .cat ⟨[.str "a", .str "b"], none, .onehot, none, fun _ => "", fun s => .ok (.str s)⟩] a ∧
    List.Forall₂ Within
    [.real ⟨0, 10, .uniform, 10, .normalize, none, id⟩,
     .cat ⟨[.str "a", .str "b"], none, .onehot, none, fun _ => "", fun s => .ok (.str s)⟩] b := by
  refine ⟨[.num 3, .str "a"], [.num 4, .str "b"], [.num 3, .str "a"], by simp, by simp, ?_, ?_⟩
  · exact .cons ⟨3, rfl, by norm_num, by norm_num⟩ (.cons (by simp [Within]) .nil)
  · exact .cons ⟨4, rfl, by norm_num, by norm_num⟩ (.cons (by simp [Within]) .nil)

/-! ## C07 -/

/-- **C07 (single point).** A list that is not a list of lists is accepted exactly when it has one
component per dimension and every component is within its dimension. -/
theorem C07_point_accepted_iff_partial [LinearOrder F] (dims : List (Dim F)) (xs : Point F)
    (h1 : ∃ v ∈ xs, v.isSeq = false) :
    checkXInSpace dims xs = .ok () ↔ List.Forall₂ Within dims xs := by
  have h2 : is2D xs = false := by
    obtain ⟨v, hv, hs⟩ := h1
    rw [is2D, List.all_eq_false]
    exact ⟨v, hv, by simp [hs]⟩
  unfold checkXInSpace
  rw [h2, if_neg (by simp), ← Space.contains_true_iff, bind_eq_ok]
  constructor
  · rintro ⟨b, hb, h⟩
    cases b
    · simp at h
    · refine ⟨hb, ?_⟩
      by_contra hl
      simp [hl] at h
  · rintro ⟨hb, hl⟩
    exact ⟨true, hb, by simp [hl]⟩

/-- **C07 (batch).** A list of lists is accepted exactly when every element has one component per
dimension, each within its dimension. -/
theorem C07_batch_accepted_iff [LinearOrder F] (dims : List (Dim F)) (ps : List (Point F)) :
    checkXInSpace dims (ps.map .seq) = .ok () ↔ ∀ p ∈ ps, List.Forall₂ Within dims p := by
  have h2 : is2D (ps.map Val.seq) = true := by
    simp [is2D, Val.isSeq]
  unfold checkXInSpace
  rw [h2, if_pos rfl, mapE_map, bind_eq_ok]
  have items_seq : ∀ p : Point F, (Val.seq p).items = p := fun _ => rfl
  simp only [items_seq]
  constructor
  · rintro ⟨bs, hbs, h⟩ p hp
    split at h
    · rename_i hall
      split at h
      · simp at h
      · rename_i hlen
        rw [← Space.contains_true_iff]
        constructor
        · rw [mapE_eq_ok] at hbs
          rw [List.all_eq_true] at hall
          have : ∀ p ∈ ps, ∃ b ∈ bs, Space.contains dims p = .ok b := by
            clear hall h2 hp h hlen
            induction hbs with
            | nil => simp
            | cons g1 _ ih =>
              intro q hq
              rcases List.mem_cons.1 hq with rfl | hq
              · exact ⟨_, by simp, g1⟩
              · obtain ⟨b, hb, hc⟩ := ih q hq
                exact ⟨b, by simp [hb], hc⟩
          obtain ⟨b, hb, hc⟩ := this p hp
          have := hall b hb
          simp only [id] at this
          rw [hc, this]
        · by_contra hne
          apply hlen
          rw [List.any_eq_true]
          exact ⟨.seq p, List.mem_map.2 ⟨p, hp, rfl⟩, by simpa [items_seq] using hne⟩
    · simp at h
  · intro h
    refine ⟨ps.map fun _ => true, ?_, ?_⟩
    · exact mapE_ok_of_forall fun p hp => (Space.contains_true_iff.2 (h p hp)).1
    · rw [if_pos (by simp), if_neg]
      intro hany
      rw [List.any_eq_true] at hany
      obtain ⟨v, hv, hne⟩ := hany
      obtain ⟨p, hp, rfl⟩ := List.mem_map.1 hv
      simp only [decide_eq_true_eq, items_seq] at hne
      exact hne (h p hp).length_eq.symm

/-- **C07 (rejection).** What is not accepted raises `ValueError` or `TypeError`. -/
theorem C07_rejection_kind [LinearOrder F] (dims : List (Dim F)) (xs : Point F) (e : PyErr)
    (h : checkXInSpace dims xs = .error e) : e = .valueError ∨ e = .typeError := by
  have hc : ∀ (ds : List (Dim F)) (p : Point F) e, Space.contains ds p = .error e →
      e = .typeError := by
    intro ds
    induction ds with
    | nil => intro p e h; simp [Space.contains] at h
    | cons d ds ih =>
      intro p e h
      cases p with
      | nil => simp [Space.contains] at h
      | cons v vs =>
        have e' : Space.contains (d :: ds) (v :: vs) = (d.contains v >>= fun b =>
          if b then Space.contains ds vs else .ok false) := rfl
        rw [e'] at h
        cases hd : d.contains v with
        | error err =>
          rw [hd, error_bind] at h
          simp only [Except.error.injEq] at h
          by_cases hw : Within d v
          · rw [Dim.contains_true.2 hw] at hd; simp at hd
          · rcases Dim.contains_ok_false hw with g | g <;> rw [g] at hd <;> simp at hd
            exact h ▸ hd.symm
        | ok b =>
          rw [hd, ok_bind] at h
          cases b
          · simp at h
          · exact ih vs e (by simpa using h)
  unfold checkXInSpace at h
  split at h
  · cases hm : mapE (fun p => Space.contains dims (Val.items p)) xs with
    | error err =>
      rw [hm, error_bind] at h
      simp only [Except.error.injEq] at h
      subst h
      have : ∀ ys, mapE (fun p => Space.contains dims (Val.items p)) ys = .error err →
          err = .typeError := by
        intro ys
        induction ys with
        | nil => simp [mapE_nil]
        | cons y ys ih =>
          simp only [mapE]
          cases hy : Space.contains dims y.items with
          | error e2 => intro h; simp at h; exact h ▸ hc _ _ _ hy
          | ok b =>
            cases hr : mapE (fun p => Space.contains dims (Val.items p)) ys with
            | error e2 => intro h; simp at h; exact ih (h ▸ hr)
            | ok bs => intro h; simp at h
      exact Or.inr (this _ hm)
    | ok bs =>
      rw [hm, ok_bind] at h
      split at h
      · split at h <;> simp at h
        exact Or.inl h.symm
      · simp at h; exact Or.inl h.symm
  · cases hm : Space.contains dims xs with
    | error err =>
      rw [hm, error_bind] at h
      simp only [Except.error.injEq] at h
      exact Or.inr (h ▸ hc _ _ _ hm)
    | ok b =>
      rw [hm, ok_bind] at h
      split at h
      · split at h <;> simp at h
        exact Or.inl h.symm
      · simp at h; exact Or.inl h.symm

/-- Non-vacuity of C07: accepted and rejected points and batches.
Meets the hypotheses of `C07_point_accepted_iff_partial`, `C07_batch_accepted_iff`. -/
example : checkXInSpace exDims [.num 5, .num (-2), .str "b"] = .ok () ∧
    checkXInSpace exDims [.num 5, .num (-2)] = .error .valueError ∧
    checkXInSpace exDims [.num 5, .num (-6), .str "b"] = .error .valueError ∧
    checkXInSpace exDims [.seq [.num 5, .num (-2), .str "b"], .seq [.num 1, .num 1, .str "a"]]
      = .ok () ∧
    checkXInSpace exDims [.seq [.num 5, .num (-2), .str "b"], .seq [.num 1, .num 1, .str "z"]]
      = .error .valueError := by
  refine ⟨?_, ?_, ?_, ?_, ?_⟩ <;> decide +kernel

/-- "Every component is legal" fails for Integer dimensions: 2.5 is accepted by `Integer(0, 5)`. -/
theorem C07_refuted_integer_accepts_fraction :
    ∃ d : Dim ℚ, mkInt 0 5 .uniform 10 none none id = .ok d ∧
      checkXInSpace [d] [.num (5/2)] = .ok () ∧ ¬ InSpace ratArith [d] [.num (5/2)] := by
  refine ⟨.int ⟨0, 5, .uniform, 10, .identity, none, id⟩,
    by rw [mkInt, if_neg (by norm_num)]; rfl, by decide +kernel, ?_⟩
  intro h
  cases h with
  | cons h1 _ =>
    obtain ⟨k, hk, _⟩ := h1
    simp only [ratArith, Val.num.injEq] at hk
    have h2 : (5 : ℚ) = ((2 * k : ℤ) : ℚ) := by push_cast; linarith
    have h3 : (5 : ℤ) = 2 * k := by exact_mod_cast h2
    omega

/-- The empty list is accepted although it is no point of a one-dimensional space. -/
theorem C07_refuted_empty_point :
    ∃ d : Dim ℚ, checkXInSpace [d] [] = .ok () ∧ ¬ List.Forall₂ Within [d] [] :=
  ⟨.real ⟨0, 1, .uniform, 10, .identity, none, id⟩, rfl, fun h => by cases h⟩

/-- If the categories are tuples, a legal point is read as a batch and rejected. -/
theorem C07_refuted_tuple_categories :
    ∃ d : Dim ℚ, mkCat [.seq [.num 1, .num 2], .seq [.num 3, .num 4]] none none none (fun _ => "")
        (fun s => .ok (.str s)) = .ok d ∧
      List.Forall₂ Within [d] [.seq [.num 1, .num 2]] ∧
      checkXInSpace [d] [.seq [.num 1, .num 2]] = .error .valueError := by
  refine ⟨_, rfl, .cons (by simp [Within]) .nil, by decide +kernel⟩

/-! ## C09 -/

theorem npIsclose_refl {a atol rtol : ℝ} (h1 : 0 ≤ atol) (h2 : 0 ≤ rtol) :
    npIsclose exact atol rtol a a = true := by
  unfold npIsclose
  rw [decide_eq_true_eq, absDiff_exact, absDiff_exact]
  show |a - a| ≤ atol + rtol * |a - _|
  rw [sub_self, abs_zero]
  positivity

/-- **C09 (part).** Equality is reflexive, and equal spaces of the same number of dimensions have
the same kinds of dimensions with the same categories, priors and transforms of Real dimensions. -/
theorem C09_equality_partial (atol rtol : ℝ) (h1 : 0 ≤ atol) (h2 : 0 ≤ rtol)
    (s t : List (Dim ℝ)) :
    Space.eqv exact atol rtol s s = true ∧
    (Space.eqv exact atol rtol s t = true → s.length = t.length →
      List.Forall₂ (fun a b => match a, b with
        | Dim.real a, Dim.real b => a.prior = b.prior ∧ a.transform = b.transform ∧
            |a.low - b.low| ≤ atol + rtol * |b.low| ∧ |a.high - b.high| ≤ atol + rtol * |b.high|
        | Dim.int a, Dim.int b =>
            |a.low - b.low| ≤ atol + rtol * |b.low| ∧ |a.high - b.high| ≤ atol + rtol * |b.high|
        | Dim.cat a, Dim.cat b => a.cats = b.cats
        | _, _ => False) s t) := by
  have hclose : ∀ {a b : ℝ}, npIsclose exact atol rtol a b = true →
      |a - b| ≤ atol + rtol * |b| := by
    intro a b h
    unfold npIsclose at h
    rw [decide_eq_true_eq, absDiff_exact, absDiff_exact] at h
    simpa [exact] using h
  constructor
  · unfold Space.eqv
    rw [List.all_eq_true]
    intro p hp
    have hpp : p.1 = p.2 := by
      obtain ⟨i, hi, rfl⟩ := List.mem_iff_getElem.1 hp
      simp
    rw [← hpp]
    have hr : ∀ a : ℝ, npIsclose exact atol rtol a a = true := fun a => npIsclose_refl h1 h2
    cases p.1 with
    | real a => simp [Dim.eqv, hr]
    | int a => simp [Dim.eqv, hr]
    | cat a =>
      simp only [Dim.eqv, decide_true, Bool.true_and, List.all_eq_true]
      intro q hq
      obtain ⟨i, hi, rfl⟩ := List.mem_iff_getElem.1 hq
      simpa using hr _
  · intro h hl
    unfold Space.eqv at h
    induction s generalizing t with
    | nil => rw [List.length_eq_zero_iff.1 hl.symm]; exact .nil
    | cons a s ih =>
      cases t with
      | nil => simp at hl
      | cons b t =>
        rw [List.zip_cons_cons, List.all_cons, Bool.and_eq_true] at h
        refine .cons ?_ (ih t h.2 (by simpa using hl))
        have h := h.1
        cases a <;> cases b <;> simp only [Dim.eqv, Bool.and_eq_true, decide_eq_true_eq,
          Bool.false_eq_true] at h ⊢
        · exact ⟨h.1.2, h.2, hclose h.1.1.1, hclose h.1.1.2⟩
        · exact ⟨hclose h.1, hclose h.2⟩
        · exact h.1.1

/-- The probabilities of the categories: those given, or all the same. -/
noncomputable def probabilities (c : CatDim ℝ) : List ℝ :=
  match c.prior with
  | some p => p
  | none => List.replicate c.cats.length (1 / (c.cats.length : ℝ))

/-- What `==` compares of two dimensions: bounds, and the probabilities of categories, up to the tolerance of
`np.allclose`; everything else that is compared, exactly. -/
def Similar (atol rtol : ℝ) : Dim ℝ → Dim ℝ → Prop
  | .real a, .real b => a.prior = b.prior ∧ a.transform = b.transform ∧
      |a.low - b.low| ≤ atol + rtol * |b.low| ∧ |a.high - b.high| ≤ atol + rtol * |b.high|
  | .int a, .int b => |a.low - b.low| ≤ atol + rtol * |b.low| ∧ |a.high - b.high| ≤ atol + rtol * |b.high|
  | .cat a, .cat b => a.cats = b.cats ∧
      List.Forall₂ (fun p q => |p - q| ≤ atol + rtol * |q|) (probabilities a) (probabilities b)
  | _, _ => False

/-- **C09, exactly.** Two spaces compare equal if and only if the dimensions they have in common by position are similar;
the further dimensions of the longer one do not matter. -/
theorem C09_equality_exact (atol rtol : ℝ) (s t : List (Dim ℝ)) :
    Space.eqv exact atol rtol s t = true ↔
      ∀ (i : Nat) a b, s[i]? = some a → t[i]? = some b → Similar atol rtol a b := by
  have hclose : ∀ {a b : ℝ}, npIsclose exact atol rtol a b = true ↔ |a - b| ≤ atol + rtol * |b| := by
    intro a b
    unfold npIsclose
    rw [decide_eq_true_eq, absDiff_exact, absDiff_exact]
    simp [exact]
  have hprob : ∀ c : CatDim ℝ, c.priorVals exact = probabilities c := by
    intro c
    unfold CatDim.priorVals probabilities
    cases c.prior <;> simp [exact]
  have hall : ∀ p q : List ℝ, p.length = q.length ∧ ((p.zip q).all fun z => npIsclose exact atol rtol z.1 z.2) = true ↔
      List.Forall₂ (fun p q => |p - q| ≤ atol + rtol * |q|) p q := by
    intro p q
    induction p generalizing q with
    | nil => cases q <;> simp
    | cons x p ih =>
      cases q with
      | nil => simp
      | cons y q =>
        rw [List.forall₂_cons, ← ih q, List.zip_cons_cons, List.all_cons, Bool.and_eq_true, hclose]
        simp only [List.length_cons, add_left_inj]
        tauto
  have hone : ∀ a b : Dim ℝ, a.eqv exact atol rtol b = true ↔ Similar atol rtol a b := by
    intro a b
    cases a <;> cases b <;> simp only [Dim.eqv, Similar, Bool.and_eq_true, decide_eq_true_eq, hclose, Bool.false_eq_true,
      hprob, ← hall, and_assoc]
    tauto
  unfold Space.eqv
  induction s generalizing t with
  | nil => simp
  | cons a s ih =>
    cases t with
    | nil => simp
    | cons b t =>
      rw [List.zip_cons_cons, List.all_cons, Bool.and_eq_true, hone]
      refine (and_congr_right fun _ => ih t).trans ?_
      constructor
      · rintro ⟨h1, h2⟩ i a' b' ha hb
        cases i with
        | zero =>
          simp only [List.getElem?_cons_zero, Option.some.injEq] at ha hb
          rw [← ha, ← hb]; exact h1
        | succ i => exact h2 i a' b' (by simpa using ha) (by simpa using hb)
      · intro h
        exact ⟨h 0 a b rfl rfl, fun i a' b' ha hb => h (i + 1) a' b' (by simpa using ha) (by simpa using hb)⟩

/-- The uniform prior is compared as probabilities: it equals the same prior given explicitly. -/
example :
    let d (p : Option (List ℚ)) (t : TKind) : Dim ℚ := .cat ⟨[.str "a", .str "b"], p, t, none, fun _ => "", fun _ => .error .valueError⟩
    Space.eqv ratArith (1/10^8) (1/10^5) [d none .onehot] [d (some [1/2, 1/2]) .identity] = true ∧
    Space.eqv ratArith (1/10^8) (1/10^5) [d none .onehot] [d (some [3/4, 1/4]) .onehot] = false := by
  decide +kernel

/-- Non-vacuity of C09: two different spaces of the same length that compare equal.
Meets the hypotheses of `C09_equality_partial`. -/
example : Space.eqv ratArith (1/10^8) (1/10^5)
    [.real ⟨0, 1, .uniform, 10, .identity, none, id⟩, .int ⟨0, 5, .uniform, 10, .identity, none, id⟩]
    [.real ⟨1/10^9, 1, .uniform, 2, .identity, none, id⟩,
     .int ⟨0, 5, .logUniform, 10, .normalize, none, id⟩] = true := by decide +kernel

/-- Equality compares only the common prefix: a 1-dimensional space equals a 2-dimensional one. -/
theorem C09_refuted_prefix :
    ∃ s t : List (Dim ℚ), Space.eqv ratArith (1/10^8) (1/10^5) s t = true ∧
      s.length ≠ t.length := by
  refine ⟨[.real ⟨0, 1, .uniform, 10, .identity, none, id⟩],
    [.real ⟨0, 1, .uniform, 10, .identity, none, id⟩, .int ⟨0, 5, .uniform, 10, .identity, none, id⟩],
    by decide +kernel, by decide⟩

/-- Equality is not symmetric (the tolerance of `np.allclose` scales with the second argument). -/
theorem C09_refuted_symmetry :
    ∃ s t : List (Dim ℚ), Space.eqv ratArith (1/10^8) (1/10^5) s t = true ∧
      Space.eqv ratArith (1/10^8) (1/10^5) t s = false := by
  refine ⟨[.real ⟨0, 1, .uniform, 10, .identity, none, id⟩],
    [.real ⟨0, 1 + 1001005/10^11, .uniform, 10, .identity, none, id⟩],
    by decide +kernel, by decide +kernel⟩

/-- Equal spaces need not have the same points: `Integer(0, 100000) == Integer(0, 100001)`. -/
theorem C09_refuted_same_points :
    ∃ s t : List (Dim ℚ), Space.eqv ratArith (1/10^8) (1/10^5) s t = true ∧
      Space.contains s [.num 100001] = .ok false ∧ Space.contains t [.num 100001] = .ok true := by
  refine ⟨[.int ⟨0, 100000, .uniform, 10, .identity, none, id⟩],
    [.int ⟨0, 100001, .uniform, 10, .identity, none, id⟩],
    by decide +kernel, by decide +kernel, by decide +kernel⟩

end Skopt

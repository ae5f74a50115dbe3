import Verif.Model.AskWarning
import Verif.Model.ExampleWorld
import Verif.Props.SpaceChecks
import Verif.Lemmas.Layout
import Verif.Lemmas.OptimizerRun

/-!
# C112: the warning about repeated points
-/

namespace Skopt

variable {M R G : Type}

/-! ## Specification -/

/-- The surrogate makes the suggestions: the initial phase is over, there is a surrogate. -/
def ModelPhase {F : Type} (s : Opt F M R) : Prop := s.nInit ≤ 0 ∧ s.cfg.hasEst = true

/-- No dimension is `Real`, and `Integer` coordinates are integers. -/
def DiscretePoint (dims : List (Dim ℝ)) (p : Point ℝ) : Prop :=
  List.Forall₂ (fun d v => match d with
    | .real _ => False
    | .int _ => ∃ z : ℤ, v = .num z
    | .cat _ => True) dims p

/-! ## Lemmas -/

theorem foldl_min_le {α : Type} [LinearOrder α] (d : α) (ds : List α) : ∀ x ∈ d :: ds, ds.foldl min d ≤ x := by
  induction ds generalizing d with
  | nil => simp
  | cons e ds ih =>
    intro x hx
    rcases List.mem_cons.1 hx with rfl | hx
    · exact (ih (min x e) (min x e) (by simp)).trans (min_le_left _ _)
    · rcases List.mem_cons.1 hx with rfl | hx
      · exact (ih (min d x) (min d x) (by simp)).trans (min_le_right _ _)
      · exact ih _ x (by simp [hx])

theorem foldl_min_mem {α : Type} [LinearOrder α] (d : α) (ds : List α) : ds.foldl min d ∈ d :: ds := by
  induction ds generalizing d with
  | nil => simp
  | cons e ds ih =>
    rcases List.mem_cons.1 (ih (min d e)) with h | h
    · rw [List.foldl_cons, h]
      rcases min_choice d e with h | h <;> simp [h]
    · simp [List.foldl_cons, h]

theorem closeToZero_iff (d : ℝ) (ds : List ℝ) (h : ∀ x ∈ d :: ds, 0 ≤ x) :
    closeToZero exact d ds = true ↔ ∃ x ∈ d :: ds, x ≤ 1 / 10 ^ 8 := by
  have h0 := h _ (foldl_min_mem d ds)
  have e0 : exact.ofInt 0 = (0 : ℝ) := by simp [exact]
  unfold closeToZero
  simp only [e0, if_neg h0.not_gt, decide_eq_true_eq]
  constructor
  · exact fun hl => ⟨_, foldl_min_mem d ds, hl⟩
  · rintro ⟨x, hx, hl⟩
    exact (foldl_min_le d ds x hx).trans hl

theorem discrete_far {dims : List (Dim ℝ)} {a b : Point ℝ} {r : ℝ} (h : PointDist dims a b r)
    (ha : DiscretePoint dims a) (hb : DiscretePoint dims b) (hr : r ≤ 1 / 10 ^ 8) : a = b := by
  rw [← h.zero_iff]
  have : ∃ z : ℤ, r = z := by
    clear hr
    induction h with
    | nil => exact ⟨0, by simp⟩
    | @cons d ds a as b bs r s h1 h2 ih =>
      cases ha with
      | cons a1 a2 =>
        cases hb with
        | cons b1 b2 =>
          obtain ⟨z, hz⟩ := ih a2 b2
          have : ∃ w : ℤ, r = w := by
            cases d with
            | real c => exact a1.elim
            | int c =>
              obtain ⟨x, rfl⟩ := a1
              obtain ⟨y, rfl⟩ := b1
              exact ⟨|x - y|, by simp only [CompDist] at h1; rw [h1]; push_cast; rfl⟩
            | cat c => rcases h1 with ⟨_, rfl⟩ | ⟨_, rfl⟩ <;> [exact ⟨0, by simp⟩; exact ⟨1, by simp⟩]
          obtain ⟨w, hw⟩ := this
          exact ⟨w + z, by rw [hw, hz]; push_cast; rfl⟩
  obtain ⟨z, rfl⟩ := this
  have h0 := h.nonneg
  have h1 : (z : ℝ) < 1 := lt_of_le_of_lt hr (by norm_num)
  have h0' : 0 ≤ z := by exact_mod_cast h0
  have h1' : z < 1 := by exact_mod_cast h1
  have : z = 0 := by omega
  simp [this]

/-- In the model phase the warning is given when a recorded point is at most `1e-8` away. -/
theorem askWarns_iff {W : World ℝ M R G} {dims : List (Dim ℝ)} {s : Opt ℝ M R} {x : Point ℝ} (hm : ModelPhase s)
    (h : (askOne exact W dims s).2 = .ok x) (hx : x.length = dims.length)
    (hXi : ∀ v ∈ s.Xi, v.items.length = dims.length) :
    askWarns exact dims s = true ↔ ∃ v ∈ s.Xi, ∃ r, PointDist dims x v.items r ∧ r ≤ 1 / 10 ^ 8 := by
  have hc : ¬ (0 < s.nInit ∨ s.cfg.hasEst = false) := by
    rintro (h | h)
    · exact absurd h (not_lt.2 hm.1)
    · rw [hm.2] at h; cases h
  unfold askOne at h
  unfold askWarns
  rw [if_neg hc] at h ⊢
  by_cases hmod : s.models.isEmpty
  · rw [if_pos hmod] at h; cases h
  rw [if_neg hmod] at h ⊢
  cases hn : s.nextX with
  | none => rw [hn] at h; cases h
  | some x' =>
    rw [hn] at h
    simp only at h ⊢
    obtain ⟨ds, hd, h⟩ := bind_eq_ok.1 h
    rw [hd]
    split at h
    · cases h
    · injection h with h
      subst h
      have hdist : ∀ v ∈ s.Xi, ∃ r, Space.distance exact dims x' v.items = .ok r ∧ PointDist dims x' v.items r ∧ 0 ≤ r := by
        intro v hv
        obtain ⟨r, _, hok⟩ := forall₂_mem_left (mapE_forall₂ hd) hv
        have hw : List.Forall₂ Within dims x' ∧ List.Forall₂ Within dims v.items := by
          by_contra hcon
          obtain ⟨e, he, _⟩ := C06_distance_rejects exact dims x' v.items hx (hXi v hv) hcon
          rw [he] at hok
          cases hok
        obtain ⟨r, _, _, _, h1, _, _, _, h2, h3, _⟩ := C06_distance_is_metric dims x' v.items x' hw.1 hw.2 hw.1
        exact ⟨r, h1, h2, h3⟩
      have hmem := mapE_forall₂ hd
      have hnn : ∀ r ∈ ds, 0 ≤ r := by
        intro r hr
        obtain ⟨v, hv, hvr⟩ := forall₂_mem_right hmem hr
        obtain ⟨r', e1, _, e3⟩ := hdist v hv
        rw [e1] at hvr
        injection hvr with hvr
        rw [← hvr]; exact e3
      cases ds with
      | nil => simp at *
      | cons d ds =>
        simp only
        rw [closeToZero_iff d ds hnn]
        constructor
        · rintro ⟨r, hr, hl⟩
          obtain ⟨v, hv, hvr⟩ := forall₂_mem_right hmem hr
          obtain ⟨r', e1, e2, e3⟩ := hdist v hv
          rw [e1] at hvr
          injection hvr with hvr
          exact ⟨v, hv, r', e2, hvr ▸ hl⟩
        · rintro ⟨v, hv, r, hp, hl⟩
          obtain ⟨r', e1, e2, e3⟩ := hdist v hv
          obtain ⟨r'', hr'', e4⟩ := forall₂_mem_left hmem hv
          rw [e1] at e4
          injection e4 with e4
          exact ⟨r'', hr'', by rw [← e4, ← hp.unique e2]; exact hl⟩

/-! ## C112 -/

/-- **C112, what holds of the warning in general.**  In the model phase, `ask` warns exactly when the distance of its
suggestion to some recorded point is at most `1e-8`; in particular it warns when the point has been told before. -/
theorem C112_repeated_points_partial (W : World ℝ M R G) (dims : List (Dim ℝ)) (s : Opt ℝ M R) (x : Point ℝ)
    (hm : ModelPhase s) (h : (askOne exact W dims s).2 = .ok x) (hx : x.length = dims.length)
    (hXi : ∀ v ∈ s.Xi, v.items.length = dims.length) :
    (askWarns exact dims s = true ↔ ∃ v ∈ s.Xi, ∃ r, PointDist dims x v.items r ∧ r ≤ 1 / 10 ^ 8) ∧
      (x ∈ s.Xi.map Val.items → askWarns exact dims s = true) := by
  refine ⟨askWarns_iff hm h hx hXi, ?_⟩
  intro hmem
  obtain ⟨v, hv, rfl⟩ := List.mem_map.1 hmem
  rw [askWarns_iff hm h hx hXi]
  have hw : List.Forall₂ Within dims v.items := by
    have h' := h
    have hc : ¬ (0 < s.nInit ∨ s.cfg.hasEst = false) := by
      rintro (h | h)
      · exact absurd h (not_lt.2 hm.1)
      · rw [hm.2] at h; cases h
    unfold askOne at h'
    rw [if_neg hc] at h'
    by_cases hmod : s.models.isEmpty
    · rw [if_pos hmod] at h'; cases h'
    rw [if_neg hmod] at h'
    cases hn : s.nextX with
    | none => rw [hn] at h'; cases h'
    | some x' =>
      rw [hn] at h'
      simp only at h'
      obtain ⟨ds, hd, h'⟩ := bind_eq_ok.1 h'
      split at h'
      · cases h'
      · injection h' with h'
        subst h'
        obtain ⟨r, _, hok⟩ := forall₂_mem_left (mapE_forall₂ hd) hv
        by_contra hcon
        obtain ⟨e, he, _⟩ := C06_distance_rejects exact dims v.items v.items hx hx (fun hh => hcon hh.1)
        rw [he] at hok
        cases hok
  obtain ⟨r, _, _, _, _, _, _, _, h2, _, h3, _⟩ := C06_distance_is_metric dims v.items v.items v.items hw hw hw
  exact ⟨v, hv, r, h2, by rw [h3.2 rfl]; positivity⟩

/-- **C112 for spaces of Integer and Categorical dimensions.**  In the model phase, `ask` warns exactly when the point it
suggests is one of the recorded points. -/
theorem C112_discrete_spaces_partial (W : World ℝ M R G) (dims : List (Dim ℝ)) (s : Opt ℝ M R) (x : Point ℝ)
    (hm : ModelPhase s) (h : (askOne exact W dims s).2 = .ok x) (hx : DiscretePoint dims x)
    (hXi : ∀ v ∈ s.Xi, DiscretePoint dims v.items) :
    askWarns exact dims s = true ↔ x ∈ s.Xi.map Val.items := by
  have hl : ∀ {p}, DiscretePoint dims p → p.length = dims.length := fun hp => (List.Forall₂.length_eq hp).symm
  obtain ⟨h1, h2⟩ := C112_repeated_points_partial W dims s x hm h (hl hx) fun v hv => hl (hXi v hv)
  refine ⟨fun hw => ?_, h2⟩
  obtain ⟨v, hv, r, hr, hle⟩ := h1.1 hw
  exact List.mem_map.2 ⟨v, hv, (discrete_far hr hx (hXi v hv) hle).symm⟩

/-- `Integer(0, 9)` beside two categories. -/
def countDims : List (Dim ℝ) :=
  [.int ⟨0, 9, .uniform, 10, .normalize, none, id⟩,
   .cat ⟨[.str "a", .str "b"], none, .onehot, none, fun _ => "", fun _ => .error .valueError⟩]

/-- An optimizer that was told two points and suggests `x`. -/
noncomputable def countOpt (x : Point ℝ) : Opt ℝ Unit Unit :=
  { (Opt.fresh exact (toyCfg .EI) () none : Opt ℝ Unit Unit) with
    nInit := 0
    Xi := [.seq [.num 3, .str "a"], .seq [.num 4, .str "b"]]
    yi := [.num (.fin 1), .num (.fin 2)]
    models := [()]
    nextX := some x }

theorem count_within (z : ℤ) (t : String) (hz : 0 ≤ z ∧ z ≤ 9) (ht : t = "a" ∨ t = "b") :
    List.Forall₂ Within countDims [.num (z : ℝ), .str t] := by
  refine .cons ⟨z, rfl, ?_⟩ (.cons ?_ .nil)
  · constructor
    · show (0 : ℝ) ≤ z
      exact_mod_cast hz.1
    · show (z : ℝ) ≤ 9
      exact_mod_cast hz.2
  · rcases ht with rfl | rfl <;> simp [Within]

theorem count_discrete (z : ℤ) (t : String) : DiscretePoint countDims [.num (z : ℝ), .str t] :=
  .cons ⟨z, rfl⟩ (.cons trivial .nil)

theorem countOpt_asks (W : World ℝ Unit Unit G) (z : ℤ) (t : String) (hz : 0 ≤ z ∧ z ≤ 9) (ht : t = "a" ∨ t = "b") :
    (askOne exact W countDims (countOpt [.num (z : ℝ), .str t])).2 = .ok [.num (z : ℝ), .str t] := by
  have h3 := count_within 3 "a" (by norm_num) (.inl rfl)
  have h4 := count_within 4 "b" (by norm_num) (.inr rfl)
  have hx := count_within z t hz ht
  obtain ⟨a, _, _, _, h1, _⟩ := C06_distance_is_metric countDims _ _ _ hx h3 h3
  obtain ⟨b, _, _, _, h2, _⟩ := C06_distance_is_metric countDims _ _ _ hx h4 h4
  norm_num at h1 h2
  simp [askOne, countOpt, Opt.fresh, toyCfg, mapE, Val.items, h1, h2]

/-- Meets the hypotheses of `C112_repeated_points_partial` and `C112_discrete_spaces_partial`: 3 with category a has been
told, 3 with category b has not. -/
example (W : World ℝ Unit Unit G) :
    askWarns exact countDims (countOpt [.num ((3 : ℤ) : ℝ), .str "a"]) = true ∧
      askWarns exact countDims (countOpt [.num ((3 : ℤ) : ℝ), .str "b"]) = false := by
  have hd : ∀ v ∈ [.seq [.num (3 : ℝ), .str "a"], .seq [.num 4, .str "b"]], DiscretePoint countDims (Val.items v) := by
    intro v hv
    simp only [List.mem_cons, List.not_mem_nil, or_false] at hv
    rcases hv with rfl | rfl
    · simpa [Val.items] using count_discrete 3 "a"
    · simpa [Val.items] using count_discrete 4 "b"
  constructor
  · exact (C112_discrete_spaces_partial W countDims _ _ ⟨le_rfl, rfl⟩
      (countOpt_asks W 3 "a" (by norm_num) (.inl rfl)) (count_discrete 3 "a") hd).2 (by simp [countOpt, Val.items])
  · rw [← Bool.not_eq_true]
    intro hw
    have := (C112_discrete_spaces_partial W countDims _ _ ⟨le_rfl, rfl⟩
      (countOpt_asks W 3 "b" (by norm_num) (.inr rfl)) (count_discrete 3 "b") hd).1 hw
    simp [countOpt, Val.items] at this

/-- **C112 is false for `Real` dimensions**: in `Real(0, 1e-9)`, after two evaluations at 0, the suggested point 5e-10 has
not been evaluated, but `ask` says it has: distances are absolute, whatever the range. -/
theorem C112_refuted_short_range :
    let dims : List (Dim ℚ) := [.real ⟨0, 1 / 10 ^ 9, .uniform, 10, .normalize, none, id⟩]
    let s := (runOps ratArith okWorld ⟨dims, none⟩ (toyOpt .EI)
      [.tell (.lst [.num 0]) (.num (.fin 1)) true, .tell (.lst [.num 0]) (.num (.fin 1)) true]).2.1
    (askOne ratArith okWorld dims s).2 = .ok [.num (5 / 10 ^ 10)] ∧ s.Xi = [.seq [.num 0], .seq [.num 0]] ∧
      askWarns ratArith dims s = true := by
  decide +kernel

/-- **C112 is false in the initial phase**: the point 5 has been evaluated, `ask` suggests it again without warning. -/
theorem C112_refuted_initial_phase :
    let s := (runOps ratArith okWorld toyShared (toyOpt .EI) [.tell (.lst [.num 5]) (.num (.fin 1)) true]).2.1
    (askOne ratArith okWorld toyDims s).2 = .ok [.num 5] ∧ s.Xi = [.seq [.num 5]] ∧
      askWarns ratArith toyDims s = false := by
  decide +kernel

end Skopt

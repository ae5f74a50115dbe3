import Verif.Model.Store
import Verif.Lemmas.Basic

/-!
# C80: storing and loading results
-/

namespace Skopt

/-! ## Specification -/

/-- What can be seen of an object without following its references. -/
def Cell.shape : Cell → Cell
  | .dict es => .dict (es.map fun e => (e.1, 0))
  | .list is => .list (is.map fun _ => 0)
  | c => c

/-- What is seen at the end of a path. -/
def Heap.look (h : Heap) (a : Nat) (p : List Step) : Option Cell :=
  ((h.follow a p).bind (h[·]?)).map Cell.shape

/-- Two objects look the same: the same is found along every path, and two paths lead to one and the same object here
if and only if they do there. -/
def SameObject (h : Heap) (a : Nat) (h' : Heap) (a' : Nat) : Prop :=
  (∀ p, h.look a p = h'.look a' p) ∧ ∀ p q, h.follow a p = h.follow a q ↔ h'.follow a' p = h'.follow a' q

/-- Nothing that existed before has changed. -/
def Untouched (h h' : Heap) : Prop := ∀ (a : Nat) (c : Cell), h[a]? = some c → h'[a]? = some c

/-- The heap as if `key` had been deleted from the dictionary `a`. -/
def Heap.without (h : Heap) (a : Nat) (es : List (String × Nat)) (key : String) : Heap :=
  h.set a (.dict (es.filter fun e => decide (e.1 ≠ key)))

/-! ## Helpers -/

/-- `h` is found in `h'`, moved by `k`. -/
def Embeds (k : Nat) (h h' : Heap) : Prop := ∀ a, a < h.length → h'[a + k]? = (h[a]?).map (Cell.shift k)

theorem Cell.shape_shift (k : Nat) (c : Cell) : (c.shift k).shape = c.shape := by
  cases c <;> simp [Cell.shift, Cell.shape, Function.comp_def]

theorem dictGet_map_snd {V W : Type} (es : List (String × V)) (f : V → W) (key : String) :
    dictGet (es.map fun e => (e.1, f e.2)) key = (dictGet es key).map f := by
  unfold dictGet
  rw [List.find?_map]
  have : ((fun p : String × W => decide (p.1 = key)) ∘ fun e : String × V => (e.1, f e.2)) =
      fun p => decide (p.1 = key) := rfl
  rw [this]
  cases es.find? fun p => decide (p.1 = key) <;> rfl

theorem Cell.child_shift (k : Nat) (c : Cell) (s : Step) : (c.shift k).child s = (c.child s).map (· + k) := by
  cases c <;> cases s <;> simp [Cell.shift, Cell.child]
  · rename_i es key
    rw [dictGet_map_snd es (· + k)]
    cases dictGet es key <;> rfl

/-- All references of the heap lead somewhere. -/
def Heap.Closed (h : Heap) : Prop := ∀ (a : Nat) (c : Cell) (s : Step) (b : Nat), h[a]? = some c → c.child s = some b → b < h.length

theorem follow_embeds {k : Nat} {h h' : Heap} (he : Embeds k h h') (hc : h.Closed) (p : List Step) :
    ∀ a, a < h.length → h'.follow (a + k) p = (h.follow a p).map (· + k) ∧ ∀ b, h.follow a p = some b → b < h.length := by
  induction p with
  | nil => intro a ha; exact ⟨rfl, fun b hb => by cases hb; exact ha⟩
  | cons s p ih =>
    intro a ha
    have e : h[a]? = some h[a] := List.getElem?_eq_getElem ha
    simp only [Heap.follow, he a ha, e, Option.map_some, Option.bind_some, Cell.child_shift]
    cases hq : (h[a]).child s with
    | none => simp
    | some b => exact ih b (hc a _ s b e hq)

theorem SameObject.of_embeds {k : Nat} {h h' : Heap} (he : Embeds k h h') (hc : h.Closed) {a : Nat} (ha : a < h.length) :
    SameObject h a h' (a + k) := by
  constructor
  · intro p
    unfold Heap.look
    obtain ⟨e, hb⟩ := follow_embeds he hc p a ha
    rw [e]
    cases hf : h.follow a p with
    | none => rfl
    | some b =>
      simp only [Option.map_some, Option.bind_some, he b (hb b hf), Option.map_map]
      congr 1
      funext c
      exact (Cell.shape_shift k c).symm
  · intro p q
    rw [(follow_embeds he hc p a ha).1, (follow_embeds he hc q a ha).1]
    constructor
    · intro h; rw [h]
    · intro h
      exact Option.map_injective (fun x y hxy => Nat.add_right_cancel hxy) h

theorem embeds_append (h₂ h : Heap) : Embeds h₂.length h (h₂ ++ h.map (Cell.shift h₂.length)) := by
  intro a _
  rw [List.getElem?_append_right (by omega), Nat.add_sub_cancel, List.getElem?_map]

theorem Cell.shift_shift (k l : Nat) (c : Cell) : (c.shift k).shift l = c.shift (k + l) := by
  cases c <;> simp [Cell.shift, Function.comp_def, Nat.add_assoc]

theorem Embeds.trans {k l : Nat} {h h' h'' : Heap} (h1 : Embeds k h h') (h2 : Embeds l h' h'')
    : Embeds (k + l) h h'' := by
  intro a ha
  have e := h1 a ha
  have hlt : a + k < h'.length := by
    by_contra hn
    rw [List.getElem?_eq_none (by omega), List.getElem?_eq_getElem ha] at e
    cases e
  rw [← Nat.add_assoc, h2 _ hlt, e, Option.map_map]
  congr 1
  funext c
  exact Cell.shift_shift k l c

theorem untouched_append (h t : Heap) : Untouched h (h ++ t) := by
  intro a c ha
  obtain ⟨hlt, -⟩ := List.getElem?_eq_some_iff.1 ha
  rw [List.getElem?_append_left hlt, ha]

theorem attr_ok {h : Heap} {a b : Nat} {key : String} (e : h.attr a key = .ok b) :
    ∃ es, h[a]? = some (.dict es) ∧ dictGet es key = .ok b := by
  unfold Heap.attr at e
  split at e
  · rename_i es hes
    split at e
    · rename_i b' hb; cases e; exact ⟨es, hes, hb⟩
    · cases e
  · cases e

theorem item_ok {h : Heap} {a b : Nat} {key : String} (e : h.item a key = .ok b) :
    ∃ es, h[a]? = some (.dict es) ∧ dictGet es key = .ok b := by
  unfold Heap.item at e
  split at e
  · rename_i es hes; exact ⟨es, hes, e⟩
  · cases e

theorem attr_embeds {k : Nat} {h h' : Heap} (he : Embeds k h h') {a b : Nat} {key : String}
    (e : h.attr a key = .ok b) : h'.attr (a + k) key = .ok (b + k) := by
  obtain ⟨es, h1, h2⟩ := attr_ok e
  unfold Heap.attr
  rw [he a (List.getElem?_eq_some_iff.1 h1).1, h1]
  simp only [Option.map_some, Cell.shift]
  rw [dictGet_map_snd es (· + k), h2]
  rfl

theorem item_embeds {k : Nat} {h h' : Heap} (he : Embeds k h h') {a b : Nat} {key : String}
    (e : h.item a key = .ok b) : h'.item (a + k) key = .ok (b + k) := by
  obtain ⟨es, h1, h2⟩ := item_ok e
  unfold Heap.item
  rw [he a (List.getElem?_eq_some_iff.1 h1).1, h1]
  simp only [Option.map_some, Cell.shift]
  rw [dictGet_map_snd es (· + k), h2]
  rfl

theorem dictGet_filter {es : List (String × Nat)} {key k : String} {b : Nat}
    (h : dictGet (es.filter fun e => decide (e.1 ≠ key)) k = .ok b) : dictGet es k = .ok b ∧ k ≠ key := by
  unfold dictGet at h ⊢
  rw [List.find?_filter] at h
  split at h
  · rename_i p hp
    cases h
    have h1 := List.find?_some hp
    simp only [decide_eq_true_eq] at h1
    have hk : k ≠ key := h1.2 ▸ h1.1
    rw [show (fun a : String × Nat => decide (decide (a.1 ≠ key) = true ∧ decide (a.1 = k) = true)) =
      fun a => decide (a.1 = k) from by
        funext a
        by_cases ha : a.1 = k
        · simp [ha, hk]
        · simp [ha]] at hp
    rw [hp]
    exact ⟨rfl, hk⟩
  · cases h

theorem without_closed {h : Heap} (hc : h.Closed) {a : Nat} {es : List (String × Nat)} (key : String)
    (ha : h[a]? = some (.dict es)) : (h.without a es key).Closed := by
  intro b c s d hb hd
  unfold Heap.without at hb ⊢
  rw [List.length_set]
  rw [List.getElem?_set] at hb
  split at hb
  · rename_i hab
    subst hab
    split at hb
    · cases hb
      cases s with
      | idx i => cases hd
      | key k =>
        simp only [Cell.child] at hd
        cases hg : dictGet (es.filter fun e => decide (e.1 ≠ key)) k with
        | error e => rw [hg] at hd; cases hd
        | ok v =>
          rw [hg] at hd
          cases hd
          refine hc a _ (.key k) d ha ?_
          simp only [Cell.child, (dictGet_filter hg).1]
          rfl
    · cases hb
  · exact hc b c s d hb hd

theorem delItem_embeds {k : Nat} {h h' h'' : Heap} (he : Embeds k h h') {a : Nat} {es : List (String × Nat)}
    (key : String) (ha : h[a]? = some (.dict es)) (hd : h'.delItem (a + k) key = .ok h'') :
    Embeds k (h.without a es key) h'' ∧ (∀ b, b < k → h''[b]? = h'[b]?) := by
  have hlt := (List.getElem?_eq_some_iff.1 ha).1
  unfold Heap.delItem at hd
  rw [he a hlt, ha] at hd
  simp only [Option.map_some, Cell.shift] at hd
  split at hd
  · cases hd
    have hlt' : a + k < h'.length := by
      by_contra hn
      have := he a hlt
      rw [List.getElem?_eq_none (by omega), ha] at this
      cases this
    constructor
    · intro b hb
      unfold Heap.without at hb ⊢
      rw [List.length_set] at hb
      rw [List.getElem?_set, List.getElem?_set]
      by_cases hab : a = b
      · subst hab
        rw [if_pos rfl, if_pos hlt', if_pos rfl, if_pos hlt]
        simp only [Option.map_some, Cell.shift]
        rw [List.filter_map]
        rfl
      · rw [if_neg (by omega), if_neg hab]
        exact he b hb
    · intro b hb
      rw [List.getElem?_set, if_neg (by omega)]
  · cases hd

theorem deepcopy_ok {h h' : Heap} {a a' : Nat} (hd : deepcopy h a = .ok (h', a')) :
    h ++ h.map (Cell.shift h.length) = h' ∧ a + h.length = a' := by
  unfold deepcopy at hd
  split at hd <;> cases hd
  exact ⟨rfl, rfl⟩

theorem joblibDump_ok {h : Heap} {a : Nat} {f : Stored} (hd : joblibDump h a = .ok f) : (h, a) = f := by
  unfold joblibDump at hd
  split at hd <;> cases hd
  rfl

theorem hasItem_ok {h : Heap} {a : Nat} {key : String} {b : Bool} (e : h.hasItem a key = .ok b) :
    ∃ es, h[a]? = some (.dict es) ∧ b = es.any fun e => decide (e.1 = key) := by
  unfold Heap.hasItem at e
  split at e
  · rename_i es hes; cases e; exact ⟨es, hes, rfl⟩
  · cases e

theorem without_absent {h : Heap} {a : Nat} {es : List (String × Nat)} {key : String} (ha : h[a]? = some (.dict es))
    (hk : (es.any fun e => decide (e.1 = key)) = false) : h.without a es key = h := by
  unfold Heap.without
  have : es.filter (fun e => decide (e.1 ≠ key)) = es := by
    apply List.filter_eq_self.2
    intro e he
    have := List.any_eq_false.1 hk e he
    simpa using this
  rw [this]
  obtain ⟨hlt, hget⟩ := List.getElem?_eq_some_iff.1 ha
  rw [← hget]
  exact List.set_getElem_self hlt

/-! ## C80 -/

/-- **C80 (nothing changes).** Neither dumping – whether it succeeds or raises – nor loading changes anything that
existed before; in particular the objective stays in the caller's result. -/
theorem C80_nothing_changed (h : Heap) (res : Nat) (st : Bool) (h₂ : Heap) (f : Stored) :
    Untouched h (skoptDump h res st).1 ∧ Untouched h₂ (skoptLoad h₂ f).1 := by
  refine ⟨?_, untouched_append _ _⟩
  unfold skoptDump
  split
  · exact fun _ _ h => h
  · split
    · exact fun _ _ h => h
    · exact fun _ _ h => h
    · rename_i hhas
      split
      · exact fun _ _ h => h
      · rename_i h' res' hd
        obtain ⟨rfl, rfl⟩ := deepcopy_ok hd
        split
        · exact untouched_append _ _
        · rename_i h'' hdel
          obtain ⟨specs, h1, hhas⟩ := bind_eq_ok.1 hhas
          obtain ⟨args, h2, hhas⟩ := bind_eq_ok.1 hhas
          obtain ⟨es, h3, -⟩ := hasItem_ok hhas
          rw [attr_embeds (embeds_append h h) h1] at hdel
          simp only [ok_bind] at hdel
          rw [item_embeds (embeds_append h h) h2] at hdel
          simp only [ok_bind] at hdel
          intro a c ha
          have hlt := (List.getElem?_eq_some_iff.1 ha).1
          rw [(delItem_embeds (embeds_append h h) "func" h3 hdel).2 a hlt]
          exact untouched_append _ _ a c ha

/-- **C80 (round trip).** If all references lead somewhere and dumping succeeds, then loading – whatever has happened to
the caller's objects in the meantime – gives an object that looks the same in every respect as the dumped one did; with
`store_objective=False`, as if only the entry "func" had been deleted from `res.specs["args"]`. -/
theorem C80_round_trip (h : Heap) (hc : h.Closed) (res : Nat) (hres : res < h.length) (st : Bool) (f : Stored)
    (hd : (skoptDump h res st).2 = .ok f) (h₂ : Heap) :
    (st = true → SameObject h res (skoptLoad h₂ f).1 (skoptLoad h₂ f).2) ∧
    (st = false → ∃ specs args es, h.attr res "specs" = .ok specs ∧ h.item specs "args" = .ok args ∧
      h[args]? = some (.dict es) ∧ SameObject (h.without args es "func") res (skoptLoad h₂ f).1 (skoptLoad h₂ f).2) := by
  have plain : ∀ (g : Heap) (a : Nat), g.Closed → a < g.length → joblibDump g a = .ok f →
      SameObject g a (skoptLoad h₂ f).1 (skoptLoad h₂ f).2 := by
    intro g a hg ha hf
    obtain rfl := joblibDump_ok hf
    exact SameObject.of_embeds (embeds_append h₂ g) hg ha
  unfold skoptDump at hd
  cases st with
  | true => exact ⟨fun _ => plain h res hc hres hd, fun h => by cases h⟩
  | false =>
    refine ⟨(fun h => by cases h), fun _ => ?_⟩
    simp only [Bool.false_eq_true, if_false] at hd
    split at hd
    · cases hd
    · rename_i hhas
      obtain ⟨specs, h1, hhas⟩ := bind_eq_ok.1 hhas
      obtain ⟨args, h2, hhas⟩ := bind_eq_ok.1 hhas
      obtain ⟨es, h3, h4⟩ := hasItem_ok hhas
      refine ⟨specs, args, es, h1, h2, h3, ?_⟩
      have hw : h.without args es "func" = h := without_absent h3 h4.symm
      rw [hw]
      exact plain h res hc hres hd
    · rename_i hhas
      split at hd
      · cases hd
      · rename_i h' res' hdc
        obtain ⟨rfl, rfl⟩ := deepcopy_ok hdc
        split at hd
        · cases hd
        · rename_i h'' hdel
          obtain ⟨specs, h1, hhas⟩ := bind_eq_ok.1 hhas
          obtain ⟨args, h2, hhas⟩ := bind_eq_ok.1 hhas
          obtain ⟨es, h3, -⟩ := hasItem_ok hhas
          rw [attr_embeds (embeds_append h h) h1] at hdel
          simp only [ok_bind] at hdel
          rw [item_embeds (embeds_append h h) h2] at hdel
          simp only [ok_bind] at hdel
          refine ⟨specs, args, es, h1, h2, h3, ?_⟩
          have hem := (delItem_embeds (embeds_append h h) "func" h3 hdel).1
          obtain rfl := joblibDump_ok hd
          have := SameObject.of_embeds (hem.trans (embeds_append h₂ h'')) (without_closed hc "func" h3)
            (a := res) (by unfold Heap.without; rw [List.length_set]; exact hres)
          rw [← Nat.add_assoc] at this
          exact this

/-- **C80 (the objective is gone).** With `store_objective=False` the loaded result has its call specifications, but no
objective in them. -/
theorem C80_objective_not_stored (h : Heap) (hc : h.Closed) (res : Nat) (hres : res < h.length) (f : Stored)
    (hd : (skoptDump h res false).2 = .ok f) (h₂ : Heap) :
    ((skoptLoad h₂ f).1.follow (skoptLoad h₂ f).2 [.key "specs", .key "args"]).isSome = true ∧
    (skoptLoad h₂ f).1.look (skoptLoad h₂ f).2 [.key "specs", .key "args", .key "func"] = none ∧
    ∀ k v, k ≠ "func" → h.follow res [.key "specs", .key "args", .key k] = some v →
      ((skoptLoad h₂ f).1.look (skoptLoad h₂ f).2 [.key "specs", .key "args", .key k]).isSome = true := by
  obtain ⟨specs, args, es, h1, h2, h3, hs, -⟩ := (C80_round_trip h hc res hres false f hd h₂).2 rfl
  have hlen : (h.without args es "func").length = h.length := List.length_set
  have hargs := (List.getElem?_eq_some_iff.1 h3).1
  have hfilter : ∀ k, k ≠ "func" → dictGet (es.filter fun e => decide (e.1 ≠ "func")) k = dictGet es k := by
    intro k hk
    unfold dictGet
    rw [List.find?_filter]
    rw [show (fun a : String × Nat => decide (decide (a.1 ≠ "func") = true ∧ decide (a.1 = k) = true)) =
      fun a => decide (a.1 = k) from by
        funext a
        by_cases ha : a.1 = k
        · simp [ha, hk]
        · simp [ha]]
  have hget : ∀ (a : Nat) (k : String), k ≠ "func" →
      ((h.without args es "func")[a]?).bind (·.child (.key k)) = (h[a]?).bind (·.child (.key k)) := by
    intro a k hk
    unfold Heap.without
    rw [List.getElem?_set]
    split
    · rename_i he
      subst he
      rw [h3]
      simp only [Option.bind_some, Cell.child]
      rw [hfilter k hk]
    · rfl
  have e1 : (h[res]?).bind (·.child (.key "specs")) = some specs := by
    obtain ⟨es', g1, g2⟩ := attr_ok h1
    rw [g1]; simp only [Option.bind_some, Cell.child, g2]; rfl
  have e2 : (h[specs]?).bind (·.child (.key "args")) = some args := by
    obtain ⟨es', g1, g2⟩ := item_ok h2
    rw [g1]; simp only [Option.bind_some, Cell.child, g2]; rfl
  have e1' := (hget res "specs" (by decide)).trans e1
  have e2' := (hget specs "args" (by decide)).trans e2
  have hgargs : (h.without args es "func")[args]? = some (.dict (es.filter fun e => decide (e.1 ≠ "func"))) := by
    unfold Heap.without
    rw [List.getElem?_set, if_pos rfl, if_pos hargs]
  refine ⟨?_, ?_, ?_⟩
  · have := hs [.key "specs", .key "args"]
    unfold Heap.look at this
    simp only [Heap.follow, e1', e2', Option.bind_some, hgargs, Option.map_some] at this
    have hsome : (((skoptLoad h₂ f).1.follow (skoptLoad h₂ f).2 [.key "specs", .key "args"]).bind
        ((skoptLoad h₂ f).1[·]?)).isSome = true := by
      rw [← Option.isSome_map (f := Cell.shape)]
      simp only [Heap.follow]
      rw [← this]; rfl
    cases hq : (skoptLoad h₂ f).1.follow (skoptLoad h₂ f).2 [.key "specs", .key "args"] with
    | none => rw [hq] at hsome; cases hsome
    | some _ => rfl
  · rw [← hs]
    unfold Heap.look
    have : (Cell.dict (es.filter fun e => decide (e.1 ≠ "func"))).child (.key "func") = none := by
      simp only [Cell.child]
      cases hq : dictGet (es.filter fun e => decide (e.1 ≠ "func")) "func" with
      | error e => rfl
      | ok b => exact absurd rfl (dictGet_filter hq).2
    simp only [Heap.follow, e1', e2', hgargs, Option.bind_some, this]
    rfl
  · intro k v hk hv
    rw [← hs]
    unfold Heap.look
    simp only [Heap.follow, e1, e2] at hv
    split at hv
    · rename_i b hb
      cases hv
      have hb' := (hget args k hk).trans hb
      simp only [Heap.follow, e1', e2', hb', Option.bind_some, Option.isSome_map]
      rw [h3] at hb
      have hlt := hc args _ (.key k) _ h3 hb
      rw [List.getElem?_eq_getElem (by rw [hlen]; exact hlt)]
      rfl
    · cases hv

/-- **C80 (when it works).** Dumping without the objective works whenever the result can be deep-copied and everything
but the objective can be pickled; dumping with it if and only if everything can be pickled.

Missing: dumping without the objective when the objective cannot be deep-copied, where it raises
(`C80_refuted_unserializable`). -/
theorem C80_dump_succeeds_partial (h : Heap) (hc : h.Closed) (res : Nat) (hres : res < h.length) (specs args : Nat)
    (es : List (String × Nat)) (h1 : h.attr res "specs" = .ok specs) (h2 : h.item specs "args" = .ok args)
    (h3 : h[args]? = some (.dict es)) :
    ((∃ f, (skoptDump h res true).2 = .ok f) ↔ h.AllReach Cell.picklable res) ∧
    (h.AllReach Cell.copyable res → (h.without args es "func").AllReach Cell.picklable res →
      ∃ f, (skoptDump h res false).2 = .ok f) := by
  constructor
  · simp only [skoptDump, if_true]
    unfold joblibDump
    split
    · rename_i hq; exact ⟨fun _ => hq, fun _ => ⟨_, rfl⟩⟩
    · rename_i hq; exact ⟨fun ⟨_, h⟩ => (by cases h), fun h => absurd h hq⟩
  · intro hcopy hpick
    have hhas : h.hasItem args "func" = .ok (es.any fun e => decide (e.1 = "func")) := by
      unfold Heap.hasItem; rw [h3]
    simp only [skoptDump, Bool.false_eq_true, if_false, h1, h2, ok_bind, hhas]
    cases hany : es.any fun e => decide (e.1 = "func") with
    | false =>
      have hw : h.without args es "func" = h := without_absent h3 hany
      rw [hw] at hpick
      exact ⟨_, by simp only [joblibDump]; rw [if_pos hpick]⟩
    | true =>
      have hd : deepcopy h res = .ok (h ++ h.map (Cell.shift h.length), res + h.length) := by
        unfold deepcopy; rw [if_pos hcopy]
      simp only [hd]
      rw [attr_embeds (embeds_append h h) h1]
      simp only [ok_bind]
      rw [item_embeds (embeds_append h h) h2]
      simp only [ok_bind]
      have hargs := (List.getElem?_eq_some_iff.1 h3).1
      have hdel : ∃ h'', (h ++ h.map (Cell.shift h.length)).delItem (args + h.length) "func" = .ok h'' := by
        unfold Heap.delItem
        rw [embeds_append h h args hargs, h3]
        simp only [Option.map_some, Cell.shift, List.any_map, Function.comp_def, hany, if_true]
        exact ⟨_, rfl⟩
      obtain ⟨h'', hdel⟩ := hdel
      simp only [hdel]
      have hem := (delItem_embeds (embeds_append h h) "func" h3 hdel).1
      refine ⟨(h'', res + h.length), ?_⟩
      · unfold joblibDump
        rw [if_pos]
        intro p b c hp hb
        have hw := without_closed hc "func" h3
        have hlen : (h.without args es "func").length = h.length := List.length_set
        obtain ⟨q1, q2⟩ := follow_embeds hem hw p res (by rw [hlen]; exact hres)
        rw [q1] at hp
        cases hf : (h.without args es "func").follow res p with
        | none => rw [hf] at hp; cases hp
        | some b' =>
          rw [hf] at hp
          cases hp
          rw [hem b' (q2 b' hf)] at hb
          cases hc' : (h.without args es "func")[b']? with
          | none => rw [hc'] at hb; cases hb
          | some c' =>
            rw [hc'] at hb
            cases hb
            have := hpick p b' c' hf hc'
            cases c' <;> exact this

/-! ## Examples and the negation -/

/-- A result whose objective is `obj`: the result, its `specs`, the arguments, a value and a list of points. -/
def storedResult (obj : Cell) : Heap :=
  [.dict [("specs", 1), ("fun", 3), ("x_iters", 4)], .dict [("args", 2)], .dict [("func", 5), ("n_calls", 3)], .data 7,
    .list [3, 3], obj]

theorem storedResult_closed (obj : Cell) (h : ∀ s, obj.child s = none) : (storedResult obj).Closed := by
  intro a c s b ha hb
  have hmem : ∀ d ∈ storedResult obj, d = obj ∨ ∀ s b, d.child s = some b → b < 6 := by
    have hd : ∀ (es : List (String × Nat)), (∀ e ∈ es, e.2 < 6) → ∀ s b, (Cell.dict es).child s = some b → b < 6 := by
      intro es hes s b hb
      cases s with
      | idx i => cases hb
      | key k =>
        simp only [Cell.child] at hb
        cases hg : dictGet es k with
        | error e => rw [hg] at hb; cases hb
        | ok v =>
          rw [hg] at hb
          cases hb
          exact hes _ (dictGet_eq_ok_mem hg)
    intro d hmd
    simp only [storedResult, List.mem_cons, List.not_mem_nil, or_false] at hmd
    rcases hmd with rfl | rfl | rfl | rfl | rfl | rfl
    · exact Or.inr (hd _ (by decide))
    · exact Or.inr (hd _ (by decide))
    · exact Or.inr (hd _ (by decide))
    · exact Or.inr (fun s b h => by cases s <;> cases h)
    · refine Or.inr (fun s b h => ?_)
      cases s with
      | key k => cases h
      | idx i =>
        simp only [Cell.child] at h
        have := List.mem_of_getElem? h
        simp only [List.mem_cons, List.not_mem_nil, or_false] at this
        omega
    · exact Or.inl rfl
  rcases hmem c (List.mem_of_getElem? ha) with rfl | hq
  · rw [h s] at hb; cases hb
  · exact hq s b hb

theorem allReach_of_all {h : Heap} {q : Cell → Bool} (hq : ∀ c ∈ h, q c = true) (a : Nat) : h.AllReach q a :=
  fun _ _ c _ hb => hq c (List.mem_of_getElem? hb)

/-- Paths through the example without its objective stay among the first five objects. -/
theorem follow_without_objective (obj : Cell) (p : List Step) :
    ∀ a b, a < 5 → ((storedResult obj).without 2 [("func", 5), ("n_calls", 3)] "func").follow a p = some b → b < 5 := by
  induction p with
  | nil => intro a b ha hb; cases hb; exact ha
  | cons s p ih =>
    intro a b ha hb
    simp only [Heap.follow] at hb
    split at hb
    · rename_i c hc
      refine ih c b ?_ hb
      have hd : ∀ (es : List (String × Nat)), (∀ e ∈ es, e.2 < 5) → ∀ s b, (Cell.dict es).child s = some b → b < 5 := by
        intro es hes s b hb
        cases s with
        | idx i => cases hb
        | key k =>
          simp only [Cell.child] at hb
          cases hg : dictGet es k with
          | error e => rw [hg] at hb; cases hb
          | ok v =>
            rw [hg] at hb
            cases hb
            exact hes _ (dictGet_eq_ok_mem hg)
      have h5 : a = 0 ∨ a = 1 ∨ a = 2 ∨ a = 3 ∨ a = 4 := by omega
      rcases h5 with rfl | rfl | rfl | rfl | rfl
      · exact hd [("specs", 1), ("fun", 3), ("x_iters", 4)] (by decide) s c hc
      · exact hd [("args", 2)] (by decide) s c hc
      · exact hd [("n_calls", 3)] (by decide) s c hc
      · cases s <;> cases hc
      · cases s with
        | key k => cases hc
        | idx i =>
          have := List.mem_of_getElem? (l := [3, 3]) hc
          simp only [List.mem_cons, List.not_mem_nil, or_false] at this
          omega
    · cases hb

theorem picklable_without_objective (obj : Cell) :
    ((storedResult obj).without 2 [("func", 5), ("n_calls", 3)] "func").AllReach Cell.picklable 0 := by
  intro p b c hp hb
  have := follow_without_objective obj p 0 b (by decide) hp
  have h5 : b = 0 ∨ b = 1 ∨ b = 2 ∨ b = 3 ∨ b = 4 := by omega
  rcases h5 with rfl | rfl | rfl | rfl | rfl <;> cases hb <;> rfl

/-- With a lambda as objective all hypotheses are met: the result cannot be dumped as it is, but without the objective
it can.
Meets the hypotheses of `C80_nothing_changed`, `C80_round_trip`, `C80_objective_not_stored`. -/
example :
    (storedResult (.lambda 1)).Closed ∧ (¬ ∃ f, (skoptDump (storedResult (.lambda 1)) 0 true).2 = .ok f) ∧
    ∃ f, (skoptDump (storedResult (.lambda 1)) 0 false).2 = .ok f := by
  have hc := storedResult_closed (.lambda 1) (fun s => by cases s <;> rfl)
  have key := C80_dump_succeeds_partial _ hc 0 (by decide) 1 2 [("func", 5), ("n_calls", 3)] rfl rfl rfl
  refine ⟨hc, ?_, key.2 (allReach_of_all (by decide) 0) (picklable_without_objective _)⟩
  rw [key.1]
  intro h
  have := h [.key "specs", .key "args", .key "func"] 5 (.lambda 1) rfl rfl
  cases this

/-- **C80 (when it works, in terms of the objects).** If no lock, open file or generator can be reached from the result,
and no lambda other than through the objective, the result can be dumped without the objective; it can be dumped as it
is if and only if there is no lambda at all. -/
theorem C80_plain_results (h : Heap) (hc : h.Closed) (res : Nat) (hres : res < h.length) (specs args : Nat)
    (es : List (String × Nat)) (h1 : h.attr res "specs" = .ok specs) (h2 : h.item specs "args" = .ok args)
    (h3 : h[args]? = some (.dict es))
    (hh : ∀ p b n, h.follow res p = some b → h[b]? ≠ some (.handle n)) :
    ((∀ p b n, (h.without args es "func").follow res p = some b → (h.without args es "func")[b]? ≠ some (.lambda n)) →
      ∃ f, (skoptDump h res false).2 = .ok f) ∧
    ((∀ p b n, h.follow res p = some b → h[b]? ≠ some (.lambda n)) ↔ ∃ f, (skoptDump h res true).2 = .ok f) := by
  obtain ⟨k1, k2⟩ := C80_dump_succeeds_partial h hc res hres specs args es h1 h2 h3
  have hlt := (List.getElem?_eq_some_iff.1 h3).1
  have hchild : ∀ (a : Nat) (s : Step), (((h.without args es "func")[a]?).bind fun c : Cell => c.child s).isSome = true →
      (((h.without args es "func")[a]?).bind fun c : Cell => c.child s) = (h[a]?).bind fun c : Cell => c.child s := by
    intro a s hs
    unfold Heap.without at hs ⊢
    rw [List.getElem?_set] at hs ⊢
    split at hs
    · rename_i e
      subst e
      simp only [hlt, if_true, h3, Option.bind_some] at hs ⊢
      cases s with
      | idx i => simp [Cell.child] at hs
      | key k =>
        simp only [Cell.child, dictGet, List.find?_filter] at hs ⊢
        by_cases hk : k = "func"
        · subst hk
          rw [show (fun a : String × Nat => decide (decide (a.1 ≠ "func") = true ∧ decide (a.1 = "func") = true)) =
            fun _ => false from by funext a; by_cases e : a.1 = "func" <;> simp [e], List.find?_eq_none.2 (by simp)] at hs
          simp [Except.toOption] at hs
        · rw [show (fun a : String × Nat => decide (decide (a.1 ≠ "func") = true ∧ decide (a.1 = k) = true)) =
            fun a => decide (a.1 = k) from by
              funext a
              by_cases e : a.1 = k
              · simp [e, hk]
              · simp [e]]
    · rename_i e
      rw [if_neg e]
  have hfol : ∀ p a b, (h.without args es "func").follow a p = some b → h.follow a p = some b := by
    intro p
    induction p with
    | nil => intro a b hp; exact hp
    | cons s p ih =>
      intro a b hp
      simp only [Heap.follow] at hp ⊢
      split at hp
      · rename_i c hcc
        rw [← hchild a s (by rw [hcc]; rfl), hcc]
        exact ih c b hp
      · cases hp
  constructor
  · intro hl
    refine k2 (fun p b c hp hb => ?_) (fun p b c hp hb => ?_)
    · cases c <;> first | rfl | exact absurd hb (hh p b _ hp)
    · cases c with
      | lambda n => exact absurd hb (hl p b n hp)
      | handle n =>
        refine absurd ?_ (hh p b n (hfol p res b hp))
        unfold Heap.without at hb
        rw [List.getElem?_set] at hb
        split at hb
        · cases hb
        · exact hb
      | _ => rfl
  · constructor
    · intro hl
      refine k1.2 fun p b c hp hb => ?_
      cases c with
      | lambda n => exact absurd hb (hl p b n hp)
      | handle n => exact absurd hb (hh p b n hp)
      | _ => rfl
    · intro hd p b n hp hb
      have := k1.1 hd p b _ hp hb
      cases this

/-- Non-vacuity: the result with a lambda as objective. -/
example : ∃ f, (skoptDump (storedResult (.lambda 1)) 0 false).2 = .ok f := by
  refine (C80_plain_results _ (storedResult_closed (.lambda 1) (fun s => by cases s <;> rfl)) 0 (by decide) 1 2
    [("func", 5), ("n_calls", 3)] rfl rfl rfl (fun p b n _ hb => ?_)).1 (fun p b n hp hb => ?_)
  · have := List.mem_of_getElem? hb
    simp [storedResult] at this
  · have := picklable_without_objective (.lambda 1) p b _ hp hb
    cases this

/-- **C80 is false for objectives that cannot be copied**: `store_objective=False` is documented as the way to store
results whose objective cannot be serialised, but the whole result is deep-copied before the objective is deleted from
the copy; if the objective is an object holding a lock, an open file or a generator, `TypeError` is raised although
everything else could have been stored. -/
theorem C80_refuted_unserializable :
    let h := storedResult (.handle 1)
    (h.without 2 [("func", 5), ("n_calls", 3)] "func").AllReach Cell.picklable 0 ∧
    (skoptDump h 0 false).2 = .error .typeError := by
  refine ⟨picklable_without_objective _, ?_⟩
  have hd : deepcopy (storedResult (.handle 1)) 0 = .error .typeError := by
    unfold deepcopy
    rw [if_neg]
    intro h
    have := h [.key "specs", .key "args", .key "func"] 5 (.handle 1) rfl rfl
    cases this
  unfold skoptDump
  rw [hd]
  rfl

/-- **C80, results without specifications**: `create_result` leaves `specs` at `None` unless told otherwise, and `dump`
looks into it as soon as the objective is not to be stored.  Such a result can only be stored with
`store_objective=True`: without the objective the call raises `TypeError` - although there is none to leave out -, and
`KeyError` if there are specifications without arguments.  Nothing is changed by the failing call. -/
theorem C80_without_specs (h : Heap) (res specs : Nat) (h1 : h.attr res "specs" = .ok specs) :
    (h[specs]? = some .none → skoptDump h res false = (h, .error .typeError)) ∧
    (∀ es, h[specs]? = some (.dict es) → (∀ v, ("args", v) ∉ es) →
      skoptDump h res false = (h, .error .keyError)) ∧
    (h.AllReach Cell.picklable res → (skoptDump h res true).2 = .ok (h, res)) := by
  refine ⟨fun h2 => ?_, fun es h2 h3 => ?_, fun h2 => ?_⟩
  · simp [skoptDump, h1, Heap.item, h2, bind, Except.bind]
  · have : dictGet es "args" = .error .keyError := by
      unfold dictGet
      rw [List.find?_eq_none.2]
      rintro ⟨k, v⟩ hm hk
      obtain rfl := of_decide_eq_true hk
      exact h3 v hm
    simp [skoptDump, h1, Heap.item, h2, this, bind, Except.bind]
  · simp [skoptDump, joblibDump, h2]

/-- The result of `create_result(Xi, yi)`: it can be stored, but not without its missing objective. -/
example :
    let h : Heap := [.dict [("x_iters", 2), ("specs", 1)], .none, .list []]
    skoptDump h 0 false = (h, .error .typeError) ∧ (skoptDump h 0 true).2 = .ok (h, 0) := by
  intro h
  have key := C80_without_specs h 0 1 rfl
  exact ⟨key.1 rfl, key.2.2 (allReach_of_all (by decide) 0)⟩

end Skopt

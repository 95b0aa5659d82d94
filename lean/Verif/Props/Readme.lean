import Verif.Spec.Readme
import Verif.Props.Text
import Verif.Props.Scheme

/-!
# What the README says of policies

Property C109.
-/

namespace Abe

/-- The policy has the attributes `L`, numbered one after the other. -/
structure Numbered (L : List Attribute) (p : Policy) : Prop where
  last : p.lastAttributeValue.toNat = L.length
  nodup : L.Nodup
  values : ∀ a, hget p.attributeToInt a = if a ∈ L then some [(L.idxOf a + 1).toUInt32] else none

theorem addAttributes_numbered {axis : String} : ∀ (names : List String) {p : Policy} {L : List Attribute}, Numbered L p → L.length + names.length < 2 ^ 32 →
    ((L ++ names.map (Attribute.mk axis)).Nodup → ∃ p', Policy.addAttributes axis names p = some p' ∧ Numbered (L ++ names.map (Attribute.mk axis)) p' ∧
      p'.axes = p.axes ∧ p'.maxAttributeCreations = p.maxAttributeCreations) ∧
    (¬ (L ++ names.map (Attribute.mk axis)).Nodup → Policy.addAttributes axis names p = none)
  | [], p, L, hL, _ => ⟨fun _ => ⟨p, rfl, by simpa using hL, rfl, rfl⟩, fun h => absurd (by simpa using hL.nodup) h⟩
  | n :: names, p, L, hL, hlen => by
    have happ : L ++ (n :: names).map (Attribute.mk axis) = (L ++ [⟨axis, n⟩]) ++ names.map (Attribute.mk axis) := by simp
    simp only [List.length_cons] at hlen
    rw [happ]
    unfold Policy.addAttributes
    simp only [hL.values]
    by_cases hm : (⟨axis, n⟩ : Attribute) ∈ L
    · simp only [hm, if_true]
      refine ⟨fun h => ?_, fun _ => trivial⟩
      have := (List.nodup_append.1 (List.nodup_append.1 h).1).2.2 _ hm _ (List.mem_singleton.2 rfl)
      exact absurd rfl this
    · simp only [hm, if_false]
      have hv : p.lastAttributeValue + 1 = (L.length + 1).toUInt32 := by
        apply UInt32.toNat_inj.1
        simp [UInt32.toNat_add, hL.last]
      have hN : Numbered (L ++ [⟨axis, n⟩])
          { p with lastAttributeValue := p.lastAttributeValue + 1, attributeToInt := hinsert p.attributeToInt ⟨axis, n⟩ [p.lastAttributeValue + 1] } := by
        refine ⟨?_, ?_, ?_⟩
        · simp only [hv, List.length_append, List.length_singleton]
          simp
          omega
        · rw [List.nodup_append]
          exact ⟨hL.nodup, List.nodup_singleton _, fun x hx y hy => by rw [List.mem_singleton.1 hy]; rintro rfl; exact hm hx⟩
        · intro a
          simp only [hget_hinsert, hL.values]
          by_cases ha : a = ⟨axis, n⟩
          · subst ha
            simp [List.idxOf_append, hm, hv]
          · simp only [ha, if_false, List.mem_append, List.mem_singleton, or_false]
            by_cases hal : a ∈ L
            · simp [hal, List.idxOf_append]
            · simp [hal]
      exact addAttributes_numbered names hN (by simp; omega)

/-- What is known of a policy built from axes. -/
structure BuiltFrom (max : UInt32) (axes : List PolicyAxis) (p : Policy) : Prop where
  numbered : Numbered (listed axes) p
  axes : ∀ n, hget p.axes n = (axes.find? fun ax => ax.name = n).map fun ax => (ax.attributes, ax.hierarchical)
  max : p.maxAttributeCreations = max

theorem listed_append (l l' : List PolicyAxis) : listed (l ++ l') = listed l ++ listed l' := by simp [listed]

theorem listed_singleton (ax : PolicyAxis) : listed [ax] = ax.attributes.map (Attribute.mk ax.name) := by simp [listed]

theorem builtFrom {max : UInt32} (axes : List PolicyAxis) :
    (Buildable max axes → ∃ p, axes.foldlM Policy.addAxis (Policy.new max) = some p ∧ BuiltFrom max axes p) ∧
    (¬ Buildable max axes → axes.foldlM Policy.addAxis (Policy.new max) = none) := by
  induction axes using List.reverseRecOn with
  | nil =>
    refine ⟨fun _ => ⟨_, rfl, ⟨⟨rfl, by simp [listed], fun a => by simp [listed, Policy.new, hget]⟩, fun n => by simp [Policy.new, hget], rfl⟩⟩, fun h => ?_⟩
    exact absurd (show Buildable max [] from ⟨by simp, by simp, by simp [listed]⟩) h
  | append_singleton done ax ih =>
    have hsub : Buildable max (done ++ [ax]) → Buildable max done := by
      rintro ⟨h1, h2, h3⟩
      rw [List.map_append] at h1
      rw [listed_append, List.length_append] at h3
      exact ⟨(List.nodup_append.1 h1).1, fun x hx => h2 x (List.mem_append_left _ hx), by omega⟩
    rw [List.foldlM_append]
    by_cases hd : Buildable max done
    · obtain ⟨p, hp, hB⟩ := ih.1 hd
      have hmax := max.toNat_lt
      have hlen : (listed (done ++ [ax])).length = (listed done).length + ax.attributes.length := by
        rw [listed_append, listed_singleton, List.length_append, List.length_map]
      have hstep : ([ax] : List PolicyAxis).foldlM Policy.addAxis p = p.addAxis ax := by simp
      rw [hp, Option.bind_eq_bind, Option.bind_some, hstep]
      unfold Policy.addAxis
      have hm : p.maxAttributeCreations.toNat = max.toNat := by rw [hB.max]
      rw [hB.numbered.last]
      by_cases hb : ax.attributes.length + (listed done).length > p.maxAttributeCreations.toNat
      · simp only [hb, if_true]
        refine ⟨fun h => ?_, fun _ => trivial⟩
        have := h.2.2
        omega
      simp only [hb, if_false]
      rcases hf : done.find? (fun x => x.name = ax.name) with _ | x
      · have hget0 : hget p.axes ax.name = none := by rw [hB.axes, hf]; rfl
        simp only [hget0]
        have hfresh : ∀ x ∈ done, x.name ≠ ax.name := by simpa [List.find?_eq_none] using hf
        have hnod : (listed done ++ ax.attributes.map (Attribute.mk ax.name)).Nodup ↔ ax.attributes.Nodup := by
          rw [List.nodup_append]
          refine ⟨fun h => h.2.1.of_map _, fun h => ⟨hB.numbered.nodup, h.map (fun a b hab => by simpa using hab), ?_⟩⟩
          rintro a ha b hb' rfl
          obtain ⟨x, hx, hax⟩ := List.mem_flatMap.1 ha
          obtain ⟨n, _, rfl⟩ := List.mem_map.1 hax
          obtain ⟨n', _, h'⟩ := List.mem_map.1 hb'
          exact hfresh x hx (by simpa using (congrArg Attribute.axis h').symm)
        have hN : Numbered (listed done) { p with axes := hinsert p.axes ax.name (ax.attributes, ax.hierarchical) } :=
          ⟨hB.numbered.last, hB.numbered.nodup, hB.numbered.values⟩
        obtain ⟨g1, g2⟩ := addAttributes_numbered (axis := ax.name) ax.attributes hN (by omega)
        rw [hnod] at g1 g2
        constructor
        · intro h
          obtain ⟨p', q1, q2, q3, q4⟩ := g1 (h.2.1 ax (by simp))
          refine ⟨p', q1, ⟨by rw [listed_append, listed_singleton]; exact q2, fun n => ?_, by rw [q4]; exact hB.max⟩⟩
          rw [q3]
          simp only [hget_hinsert, hB.axes, List.find?_append, List.find?_singleton]
          by_cases hn : n = ax.name
          · subst hn
            simp [hf]
          · simp only [hn, if_false, Ne.symm hn, decide_false, Bool.false_eq_true, Option.or_none]
        · intro h
          apply g2
          intro hnd
          apply h
          refine ⟨?_, ?_, by omega⟩
          · rw [List.map_append, List.nodup_append]
            refine ⟨hd.1, by simp, ?_⟩
            rintro a ha b hb' rfl
            obtain ⟨x, hx, rfl⟩ := List.mem_map.1 ha
            exact hfresh x hx (by simpa using hb')
          · intro x hx
            rcases List.mem_append.1 hx with hx | hx
            · exact hd.2.1 x hx
            · rw [List.mem_singleton.1 hx]; exact hnd
      · have hget0 : hget p.axes ax.name = some (x.attributes, x.hierarchical) := by rw [hB.axes, hf]; rfl
        simp only [hget0]
        refine ⟨fun h => ?_, fun _ => trivial⟩
        have hx := List.mem_of_find?_eq_some hf
        have hxn : x.name = ax.name := by simpa using List.find?_some hf
        have h1 := h.1
        rw [List.map_append, List.nodup_append] at h1
        exact absurd hxn (h1.2.2 _ (List.mem_map.2 ⟨x, hx, rfl⟩) _ (by simp))
    · rw [ih.2 hd]
      exact ⟨fun h => absurd (hsub h) hd, fun _ => rfl⟩

/-- **C109**, the table of the README: axes can be made a policy exactly if their names differ, the attributes of each differ and there are not too many; the value of an
attribute is then its place in the list of all attributes, and its only value. -/
theorem C109_values (max : UInt32) (axes : List PolicyAxis) :
    ((axes.foldlM Policy.addAxis (Policy.new max)).isSome ↔ Buildable max axes) ∧
    ∀ p, axes.foldlM Policy.addAxis (Policy.new max) = some p →
      p.lastAttributeValue.toNat = (listed axes).length ∧ p.maxAttributeCreations = max ∧ (∀ a, p.Known a ↔ a ∈ listed axes) ∧
      ∀ a v, (p.HasValue a v ↔ ∃ before after, listed axes = before ++ a :: after ∧ v.toNat = before.length + 1) ∧ (p.Top a v ↔ p.HasValue a v) := by
  obtain ⟨h1, h2⟩ := builtFrom (max := max) axes
  refine ⟨⟨fun h => ?_, fun h => ?_⟩, fun p hp => ?_⟩
  · by_contra hb
    rw [h2 hb] at h
    exact absurd h (by simp)
  · obtain ⟨p, hp, _⟩ := h1 h
    rw [hp]; rfl
  · have hb : Buildable max axes := by
      by_contra hb
      rw [h2 hb] at hp
      exact absurd hp (by simp)
    obtain ⟨p', hp', hB⟩ := h1 hb
    rw [hp] at hp'
    obtain rfl := Option.some.inj hp'
    have hlen : (listed axes).length < 2 ^ 32 := lt_of_le_of_lt hb.2.2 max.toNat_lt
    refine ⟨hB.numbered.last, hB.max, fun a => ?_, fun a v => ⟨?_, ?_⟩⟩
    · unfold Policy.Known
      rw [hB.axes]
      constructor
      · rintro ⟨list, h, h3, h4⟩
        obtain ⟨ax, h5, h6⟩ := Option.map_eq_some_iff.1 h3
        have h7 : ax.name = a.axis := by simpa using List.find?_some h5
        obtain ⟨rfl, rfl⟩ := Prod.mk.inj h6
        exact List.mem_flatMap.2 ⟨ax, List.mem_of_find?_eq_some h5, List.mem_map.2 ⟨a.name, h4, by rw [h7]⟩⟩
      · intro ha
        obtain ⟨ax, h3, h4⟩ := List.mem_flatMap.1 ha
        obtain ⟨n, h5, rfl⟩ := List.mem_map.1 h4
        have h6 : axes.find? (fun x => x.name = ax.name) = some ax := by
          obtain ⟨l, r, rfl⟩ := List.append_of_mem h3
          rw [List.find?_append, List.find?_cons_of_pos (by simp)]
          have : l.find? (fun x => x.name = ax.name) = none := by
            rw [List.find?_eq_none]
            intro x hx
            have hn := hb.1
            rw [List.map_append, List.nodup_append] at hn
            simpa using hn.2.2 _ (List.mem_map.2 ⟨x, hx, rfl⟩) ax.name (by simp)
          rw [this]; rfl
        exact ⟨ax.attributes, ax.hierarchical, by simp only [h6]; rfl, h5⟩
    · unfold Policy.HasValue
      simp only [hB.numbered.values]
      constructor
      · rintro ⟨heap, h3, h4⟩
        split at h3
        · rename_i ha
          obtain rfl := Option.some.inj h3
          obtain rfl := List.mem_singleton.1 h4
          have hi := List.idxOf_lt_length_of_mem ha
          refine ⟨(listed axes).take ((listed axes).idxOf a), (listed axes).drop ((listed axes).idxOf a + 1), ?_, ?_⟩
          · conv_lhs => rw [← List.take_append_drop ((listed axes).idxOf a) (listed axes)]
            rw [List.drop_eq_getElem_cons hi, List.getElem_idxOf hi]
          · rw [List.length_take, Nat.toUInt32, UInt32.toNat_ofNat']
            omega
        · exact absurd h3 (by simp)
      · rintro ⟨before, after, h3, h4⟩
        have hn := hB.numbered.nodup
        have hidx : (listed axes).idxOf a = before.length := by
          rw [h3] at hn ⊢
          have : a ∉ before := fun h => (List.nodup_append.1 hn).2.2 a h a (by simp) rfl
          rw [List.idxOf_append, if_neg this, List.idxOf_cons_self, Nat.zero_add]
        refine ⟨_, by rw [if_pos (by rw [h3]; simp)], ?_⟩
        rw [List.mem_singleton, hidx, ← h4]
        simp
    · unfold Policy.Top Policy.HasValue
      simp only [hB.numbered.values]
      split
      · constructor
        · rintro ⟨older, h3⟩
          simp only [Option.some.injEq, List.cons.injEq] at h3
          exact ⟨_, rfl, by rw [h3.1]; simp⟩
        · rintro ⟨heap, h3, h4⟩
          obtain rfl := Option.some.inj h3
          obtain rfl := List.mem_singleton.1 h4
          exact ⟨[], rfl⟩
      · simp

/-- **C109**, the formula of the README: in a policy just built, an attribute stands for its value, followed on a hierarchical axis by those of the lower attributes. -/
theorem C109_formula {max : UInt32} {before after : List PolicyAxis} {ax : PolicyAxis} {p : Policy}
    (hp : (before ++ ax :: after).foldlM Policy.addAxis (Policy.new max) = some p) {lower higher : List String} {n : String}
    (hn : ax.attributes = lower ++ n :: higher) :
    policyToFormula p (.attr ⟨ax.name, n⟩) = .ok (orNext (.leaf ((listed before).length + lower.length + 1).toUInt32) (listed before).length
      (if ax.hierarchical then lower.length else 0)) := by
  have hb : Buildable max (before ++ ax :: after) := ((C109_values max _).1).1 (by rw [hp]; rfl)
  obtain ⟨p', hp', hB⟩ := (builtFrom (max := max) (before ++ ax :: after)).1 hb
  rw [hp] at hp'
  obtain rfl := Option.some.inj hp'
  have hax : hget p.axes ax.name = some (ax.attributes, ax.hierarchical) := by
    rw [hB.axes, List.find?_append, List.find?_cons_of_pos (by simp)]
    have : before.find? (fun x => x.name = ax.name) = none := by
      rw [List.find?_eq_none]
      intro x hx
      have hn := hb.1
      rw [List.map_append, List.nodup_append] at hn
      simpa using hn.2.2 _ (List.mem_map.2 ⟨x, hx, rfl⟩) ax.name (by simp)
    rw [this]; rfl
  have hnod := hb.2.1 ax (by simp)
  have hval : ∀ l m r, ax.attributes = l ++ m :: r → ∀ of, heapNode p of ⟨ax.name, m⟩ = .ok (.leaf ((listed before).length + l.length + 1).toUInt32) := by
    intro l m r hl of
    have hlist : listed (before ++ ax :: after) =
        (listed before ++ l.map (Attribute.mk ax.name)) ++ ⟨ax.name, m⟩ :: (r.map (Attribute.mk ax.name) ++ listed after) := by
      rw [listed_append, ← List.singleton_append, listed_append, listed_singleton, hl]
      simp
    have hnd := hB.numbered.nodup
    have hidx : (listed (before ++ ax :: after)).idxOf ⟨ax.name, m⟩ = (listed before).length + l.length := by
      rw [hlist] at hnd ⊢
      have : (⟨ax.name, m⟩ : Attribute) ∉ listed before ++ l.map (Attribute.mk ax.name) := fun h => (List.nodup_append.1 hnd).2.2 _ h _ (by simp) rfl
      rw [List.idxOf_append, if_neg this, List.idxOf_cons_self]
      simp
    unfold heapNode
    rw [hB.numbered.values, if_pos (by rw [hlist]; simp), hidx]
    rfl
  have hnl : n ∉ lower := by
    rw [hn] at hnod
    exact fun h => (List.nodup_append.1 hnod).2.2 n h n (by simp) rfl
  have hfi : ax.attributes.findIdx? (· == n) = some lower.length := by
    rw [hn, List.findIdx?_append]
    have : lower.findIdx? (· == n) = none := by
      rw [List.findIdx?_eq_none_iff]
      intro x hx
      simp only [beq_eq_false_iff_ne]
      rintro rfl
      exact hnl hx
    simp [this, List.findIdx?_cons]
  have hfold : ∀ done todo : List String, lower = done ++ todo → foldRes (fun val elem => do
      let m ← heapNode p ⟨ax.name, n⟩ ⟨ax.name, elem⟩
      .ok (.or val m)) (orNext (.leaf ((listed before).length + lower.length + 1).toUInt32) (listed before).length done.length) todo =
      .ok (orNext (.leaf ((listed before).length + lower.length + 1).toUInt32) (listed before).length lower.length) := by
    intro done todo
    induction todo generalizing done with
    | nil => rintro rfl; simp
    | cons m todo ih =>
      intro hl
      have hm := hval done m (todo ++ n :: higher) (by rw [hn, hl]; simp) ⟨ax.name, n⟩
      rw [foldRes_cons, hm, Res.ok_bind]
      have := ih (done ++ [m]) (by rw [hl]; simp)
      rw [List.length_append, List.length_singleton] at this
      exact this
  unfold policyToFormula policyToNode
  simp only [hax]
  rw [if_pos (by rw [hn]; simp), hfi]
  simp only [Res.ofOption, Res.ok_bind]
  rw [hval lower n higher hn, Res.ok_bind]
  cases ax.hierarchical
  · rfl
  · simp only [if_true]
    rw [show ax.attributes.take lower.length = lower by rw [hn]; simp]
    exact hfold [] lower rfl

/-- The values of a policy are the places in a list. -/
structure Places (L : List Attribute) (p : Policy) : Prop where
  reachable : p.Reachable
  last : p.lastAttributeValue.toNat = L.length
  values : ∀ a v, p.HasValue a v ↔ ∃ before after, L = before ++ a :: after ∧ v.toNat = before.length + 1
  known : ∀ a, p.Known a ↔ a ∈ L

theorem addAxes_reachable {axes : List PolicyAxis} : ∀ {p p' : Policy}, p.Reachable → axes.foldlM Policy.addAxis p = some p' → p'.Reachable := by
  induction axes with
  | nil => intro p p' h e; obtain rfl := Option.some.inj (show some p = some p' from e); exact h
  | cons ax axes ih =>
    intro p p' h e
    rw [List.foldlM_cons] at e
    obtain ⟨q, e1, e2⟩ := Option.bind_eq_some_iff.1 e
    exact ih (.addAxis ax h e1) e2

theorem Places.rotate {L : List Attribute} {p p' : Policy} (h : Places L p) {a : Attribute} (hp : p.rotate a = some p') : Places (L ++ [a]) p' := by
  obtain ⟨_, e2, _, e4, e5, _, _, e8⟩ := rotate_spec (reachable_wf h.reachable) hp
  have ha : a ∈ L := (h.known a).1 e5
  refine ⟨.rotate a h.reachable hp, by rw [e4, h.last]; simp, fun b v => ?_, fun b => ?_⟩
  · rw [e8, h.values]
    constructor
    · rintro (⟨l, r, rfl, hv⟩ | ⟨rfl, rfl⟩)
      · exact ⟨l, r ++ [a], by simp, hv⟩
      · exact ⟨L, [], rfl, by rw [e4, h.last]⟩
    · rintro ⟨l, r, he, hv⟩
      rcases List.eq_nil_or_concat r with rfl | ⟨r', x, rfl⟩
      · obtain ⟨rfl, hx⟩ := List.append_inj' he rfl
        refine .inr ⟨(List.cons.inj hx).1.symm, UInt32.toNat_inj.1 ?_⟩
        rw [hv, e4, h.last]
      · rw [List.concat_eq_append, ← List.cons_append, ← List.append_assoc] at he
        exact .inl ⟨l, r', (List.append_inj' he rfl).1, hv⟩
  · have : p'.Known b ↔ p.Known b := by unfold Policy.Known; rw [e2]
    rw [this, h.known]
    simp only [List.mem_append, List.mem_singleton]
    exact ⟨.inl, fun hb => hb.elim id fun hb => hb ▸ ha⟩

theorem Places.rotations {L l : List Attribute} {p p' : Policy} (h : Places L p) (hp : p.Rotations l p') : Places (L ++ l) p' := by
  induction hp generalizing L with
  | nil => simpa using h
  | cons h1 _ ih => simpa using ih (h.rotate h1)

/-- **C109**, the table after rotations: each rotation takes the next number.  The values of an attribute are its places in the list of all attributes followed by the
rotations, the current value is the last of these places, and rotations are possible exactly if the attributes are known and the list is within the budget. -/
theorem C109_rotations {max : UInt32} {axes : List PolicyAxis} {p : Policy} (hp : axes.foldlM Policy.addAxis (Policy.new max) = some p) (atts : List Attribute) :
    ((∃ p', p.Rotations atts p') ↔ (∀ a ∈ atts, a ∈ listed axes) ∧ (atts ≠ [] → (listed axes).length + atts.length ≤ max.toNat)) ∧
    ∀ p', p.Rotations atts p' → ∀ a v,
      (p'.HasValue a v ↔ ∃ before after, listed axes ++ atts = before ++ a :: after ∧ v.toNat = before.length + 1) ∧
      (p'.Top a v ↔ ∃ before after, listed axes ++ atts = before ++ a :: after ∧ a ∉ after ∧ v.toNat = before.length + 1) := by
  obtain ⟨h1, h2, h3, h4⟩ := (C109_values max axes).2 p hp
  have hP : Places (listed axes) p := ⟨addAxes_reachable (.new max) hp, h1, fun a v => (h4 a v).1, h3⟩
  constructor
  · have gen : ∀ (l L : List Attribute) (q : Policy), Places L q → q.maxAttributeCreations = max →
        ((∃ p', q.Rotations l p') ↔ (∀ a ∈ l, a ∈ L) ∧ (l ≠ [] → L.length + l.length ≤ max.toNat)) := by
      intro l
      induction l with
      | nil => exact fun L q _ _ => ⟨fun _ => by simp, fun _ => ⟨q, .nil q⟩⟩
      | cons a l ih =>
        intro L q hq hm
        have hs := rotate_isSome (reachable_wf hq.reachable) a
        rw [hq.known, hq.last, hm] at hs
        simp only [List.length_cons, ne_eq, reduceCtorEq, not_false_eq_true, true_implies]
        constructor
        · rintro ⟨p', hr⟩
          cases hr with
          | cons g1 g2 =>
            have g3 := hs.1 (by rw [g1]; rfl)
            obtain ⟨g4, g5⟩ := (ih _ _ (hq.rotate g1) (by rw [(rotate_spec (reachable_wf hq.reachable) g1).2.2.1, hm])).1 ⟨_, g2⟩
            simp only [List.mem_append, List.mem_singleton, List.length_append, List.length_singleton] at g4 g5
            refine ⟨fun b hb => ?_, ?_⟩
            · rcases List.mem_cons.1 hb with rfl | hb
              · exact g3.1
              · exact (g4 b hb).elim id fun h => h ▸ g3.1
            · rcases l with _ | ⟨x, l⟩
              · simp; omega
              · have := g5 (by simp); omega
        · rintro ⟨g1, g2⟩
          obtain ⟨q', hq'⟩ := Option.isSome_iff_exists.1 (hs.2 ⟨g1 a (by simp), by omega⟩)
          obtain ⟨p', hr⟩ := (ih _ _ (hq.rotate hq') (by rw [(rotate_spec (reachable_wf hq.reachable) hq').2.2.1, hm])).2
            ⟨fun b hb => List.mem_append_left _ (g1 b (List.mem_cons_of_mem _ hb)), fun _ => by simp; omega⟩
          exact ⟨p', .cons hq' hr⟩
    exact gen atts _ p hP h2
  · intro p' hr a v
    have hP' := hP.rotations hr
    refine ⟨hP'.values a v, ?_⟩
    rw [(C53_reachable_well_formed hP'.reachable).2.2.2, hP'.values]
    constructor
    · rintro ⟨⟨l, r, he, hv⟩, hmax⟩
      refine ⟨l, r, he, fun hr' => ?_, hv⟩
      obtain ⟨r1, r2, rfl⟩ := List.append_of_mem hr'
      have hlen := congrArg List.length he
      simp only [List.length_append, List.length_cons] at hlen
      have hlt : l.length + (r1.length + 1) + 1 < 2 ^ 32 := by
        have := hP'.last
        have := p'.lastAttributeValue.toNat_lt
        rw [List.length_append] at *
        omega
      have := hmax (l.length + (r1.length + 1) + 1).toUInt32 ((hP'.values _ _).2 ⟨l ++ a :: r1, r2, by rw [he]; simp, by
        rw [Nat.toUInt32, UInt32.toNat_ofNat', Nat.mod_eq_of_lt hlt]; simp⟩)
      rw [UInt32.le_iff_toNat_le, Nat.toUInt32, UInt32.toNat_ofNat', Nat.mod_eq_of_lt hlt] at this
      omega
    · rintro ⟨l, r, he, hn, hv⟩
      refine ⟨⟨l, r, he, hv⟩, fun w hw => ?_⟩
      obtain ⟨l', r', he', hv'⟩ := (hP'.values _ _).1 hw
      rw [UInt32.le_iff_toNat_le, hv, hv']
      by_contra hlt
      apply hn
      have hd : (l ++ a :: r).drop (l.length + 1) = r := by simp
      rw [← hd, ← he, he', List.drop_append_of_le_length (by omega)]
      simp

/-! ### The example of the README -/

namespace Readme

/-- The axes of the README, departments first as in its table. -/
def department : PolicyAxis := ⟨"Department", ["HR", "FIN", "MKG", "R&D"], false⟩

/-- The second axis of the README. -/
def securityLevel : PolicyAxis := ⟨"Security Level", ["low", "medium", "high"], true⟩

theorem buildable : Buildable 100 [department, securityLevel] := by
  refine ⟨by decide, by decide, by decide⟩

/-- The table and the formula `3 & (6 | 5)` of the README, which is also what is read from its text. -/
example : ∃ p, [department, securityLevel].foldlM Policy.addAxis (Policy.new 100) = some p ∧
    p.Top ⟨"Department", "HR"⟩ 1 ∧ p.Top ⟨"Department", "FIN"⟩ 2 ∧ p.Top ⟨"Department", "MKG"⟩ 3 ∧ p.Top ⟨"Department", "R&D"⟩ 4 ∧
    p.Top ⟨"Security Level", "low"⟩ 5 ∧ p.Top ⟨"Security Level", "medium"⟩ 6 ∧ p.Top ⟨"Security Level", "high"⟩ 7 ∧
    policyToFormula p (.and (.attr ⟨"Department", "MKG"⟩) (.attr ⟨"Security Level", "medium"⟩)) = .ok (.and (.leaf 3) (.or (.leaf 6) (.leaf 5))) ∧
    Node.parse .release64 "3 & (6 | 5)".toList = .ok (.and (.leaf 3) (.or (.leaf 6) (.leaf 5))) := by
  obtain ⟨h1, h2⟩ := C109_values 100 [department, securityLevel]
  obtain ⟨p, hp⟩ := Option.isSome_iff_exists.1 (h1.2 buildable)
  obtain ⟨_, _, _, h3⟩ := h2 p hp
  have top : ∀ {a : Attribute} {v : UInt32} (b r : List Attribute), listed [department, securityLevel] = b ++ a :: r → v.toNat = b.length + 1 → p.Top a v :=
    fun b r e l => (h3 _ _).2.2 ((h3 _ _).1.2 ⟨b, r, e, l⟩)
  have f1 := C109_formula (before := []) (ax := department) (after := [securityLevel]) hp (lower := ["HR", "FIN"]) (n := "MKG") (higher := ["R&D"]) rfl
  have f2 := C109_formula (before := [department]) (ax := securityLevel) (after := []) hp (lower := ["low"]) (n := "medium") (higher := ["high"]) rfl
  refine ⟨p, hp, top [] _ rfl rfl, top [⟨"Department", "HR"⟩] _ rfl rfl, top [⟨"Department", "HR"⟩, ⟨"Department", "FIN"⟩] _ rfl rfl,
    top ((listed [department]).take 3) _ rfl rfl, top (listed [department]) _ rfl rfl,
    top (listed [department] ++ [⟨"Security Level", "low"⟩]) _ rfl rfl, top (listed [department] ++ [⟨"Security Level", "low"⟩, ⟨"Security Level", "medium"⟩]) [] rfl rfl,
    ?_, by decide +kernel⟩
  unfold policyToFormula
  rw [show (⟨"Department", "MKG"⟩ : Attribute) = ⟨department.name, "MKG"⟩ from rfl, f1, Res.ok_bind,
    show (⟨"Security Level", "medium"⟩ : Attribute) = ⟨securityLevel.name, "medium"⟩ from rfl, f2, Res.ok_bind]
  rfl

/-- An axis that occurs twice, an attribute that occurs twice, and a budget that is too small. -/
example : [department, department].foldlM Policy.addAxis (Policy.new 100) = none ∧ [⟨"A", ["x", "x"], true⟩].foldlM Policy.addAxis (Policy.new 100) = none ∧
    [department, securityLevel].foldlM Policy.addAxis (Policy.new 6) = none := by
  refine ⟨?_, ?_, ?_⟩ <;>
  · refine Option.not_isSome_iff_eq_none.1 fun h => absurd ((C109_values _ _).1.1 h) ?_
    rintro ⟨h1, h2, h3⟩
    revert h1 h2 h3
    decide

/-- Rotations of `medium`, `MKG` and `medium` again, which get the values 8, 9 and 10. -/
example : ∃ p p', [department, securityLevel].foldlM Policy.addAxis (Policy.new 100) = some p ∧
    p.Rotations [⟨"Security Level", "medium"⟩, ⟨"Department", "MKG"⟩, ⟨"Security Level", "medium"⟩] p' ∧
    p'.Top ⟨"Security Level", "medium"⟩ 10 ∧ p'.HasValue ⟨"Security Level", "medium"⟩ 8 ∧ p'.HasValue ⟨"Security Level", "medium"⟩ 6 ∧
    p'.Top ⟨"Department", "MKG"⟩ 9 ∧ p'.Top ⟨"Security Level", "low"⟩ 5 := by
  obtain ⟨p, hp⟩ := Option.isSome_iff_exists.1 ((C109_values 100 [department, securityLevel]).1.2 buildable)
  obtain ⟨h1, h2⟩ := C109_rotations hp [⟨"Security Level", "medium"⟩, ⟨"Department", "MKG"⟩, ⟨"Security Level", "medium"⟩]
  obtain ⟨p', hr⟩ := h1.2 ⟨by decide, by decide⟩
  have h3 := h2 p' hr
  refine ⟨p, p', hp, hr, (h3 _ _).2.2 ⟨listed [department, securityLevel] ++ [⟨"Security Level", "medium"⟩, ⟨"Department", "MKG"⟩], [], rfl, by simp, rfl⟩,
    (h3 _ _).1.2 ⟨listed [department, securityLevel], _, rfl, rfl⟩, (h3 _ _).1.2 ⟨listed [department] ++ [⟨"Security Level", "low"⟩], _, rfl, rfl⟩,
    (h3 _ _).2.2 ⟨listed [department, securityLevel] ++ [⟨"Security Level", "medium"⟩], _, rfl, by decide, rfl⟩,
    (h3 _ _).2.2 ⟨listed [department], ⟨"Security Level", "medium"⟩ :: ⟨"Security Level", "high"⟩ ::
      [⟨"Security Level", "medium"⟩, ⟨"Department", "MKG"⟩, ⟨"Security Level", "medium"⟩], rfl, by decide, rfl⟩⟩

/-- With a budget of 9 the three rotations are not possible. -/
example : ∃ p, [department, securityLevel].foldlM Policy.addAxis (Policy.new 9) = some p ∧
    ¬ ∃ p', p.Rotations [⟨"Security Level", "medium"⟩, ⟨"Department", "MKG"⟩, ⟨"Security Level", "medium"⟩] p' := by
  obtain ⟨p, hp⟩ := Option.isSome_iff_exists.1 ((C109_values 9 [department, securityLevel]).1.2 ⟨by decide, by decide, by decide⟩)
  exact ⟨p, hp, fun h => absurd (((C109_rotations hp _).1.1 h).2 (by simp)) (by decide)⟩

/-- **C109**, refutation: with the axes in the order in which the README lists them in its JSON, which has the levels first, the table does not hold: `MKG` has the
value 6 and `medium` the value 2. -/
theorem C109_readme_order_refuted : ∃ p, [securityLevel, department].foldlM Policy.addAxis (Policy.new 100) = some p ∧
    p.Top ⟨"Department", "MKG"⟩ 6 ∧ p.Top ⟨"Security Level", "medium"⟩ 2 ∧ ¬ p.HasValue ⟨"Department", "MKG"⟩ 3 ∧ ¬ p.HasValue ⟨"Security Level", "medium"⟩ 6 := by
  obtain ⟨h1, h2⟩ := C109_values 100 [securityLevel, department]
  obtain ⟨p, hp⟩ := Option.isSome_iff_exists.1 (h1.2 ⟨by decide, by decide, by decide⟩)
  obtain ⟨_, _, _, h3⟩ := h2 p hp
  have top : ∀ {a : Attribute} {v : UInt32} (b r : List Attribute), listed [securityLevel, department] = b ++ a :: r → v.toNat = b.length + 1 → p.Top a v :=
    fun b r e l => (h3 _ _).2.2 ((h3 _ _).1.2 ⟨b, r, e, l⟩)
  have t1 : p.Top ⟨"Department", "MKG"⟩ 6 := top (listed [securityLevel] ++ [⟨"Department", "HR"⟩, ⟨"Department", "FIN"⟩]) _ rfl rfl
  have t2 : p.Top ⟨"Security Level", "medium"⟩ 2 := top [⟨"Security Level", "low"⟩] _ rfl rfl
  have uniq : ∀ {a : Attribute} {v w : UInt32}, p.Top a v → p.HasValue a w → v = w := by
    intro a v w hv hw
    obtain ⟨l, hl⟩ := hv
    obtain ⟨l', hl'⟩ := ((h3 a w).2.2 hw)
    rw [hl] at hl'
    exact (List.cons.inj (Option.some.inj hl')).1
  exact ⟨p, hp, t1, t2, fun h => absurd (uniq t1 h) (by decide), fun h => absurd (uniq t2 h) (by decide)⟩

/-- The axes concerned can be made a policy. -/
example : Buildable 100 [securityLevel, department] := ⟨by decide, by decide, by decide⟩

end Readme

end Abe

import Verif.Proofs.Policy

/-! Policy operations preserve well-formedness; rotations. -/

namespace Abe

set_option linter.unusedSectionVars false

theorem new_wf (max : UInt32) : (Policy.new max).WF where
  keysNodup := by simp [Policy.new]
  axesNodup := by simp [Policy.new]
  namesNodup := by simp [Policy.new, hget]
  known := by simp [Policy.new, hget, Policy.Known]
  top := by simp [Policy.new, hget]
  valuesNodup := by simp [Policy.new, Policy.allValues]
  range := by simp [Policy.new, Policy.allValues]
  budget := by simp [Policy.new]

theorem succ_toNat {v m : UInt32} (h : v.toNat < m.toNat) : (v + 1).toNat = v.toNat + 1 := by
  have := m.toNat_lt
  rw [UInt32.toNat_add]
  simp
  omega

/-- The part of well-formedness about values. -/
structure ValuesOk (m : List (Attribute × List UInt32)) (last : Nat) : Prop where
  keysNodup : (m.map Prod.fst).Nodup
  top : ∀ a heap, hget m a = some heap → ∃ v, heap.head? = some v ∧ ∀ w ∈ heap, w ≤ v
  valuesNodup : (m.map Prod.snd).flatten.Nodup
  range : ∀ v ∈ (m.map Prod.snd).flatten, 1 ≤ v.toNat ∧ v.toNat ≤ last

theorem addAttributes_spec (axis : String) : ∀ (names : List String) (p p' : Policy),
    ValuesOk p.attributeToInt p.lastAttributeValue.toNat →
    names.length + p.lastAttributeValue.toNat ≤ p.maxAttributeCreations.toNat →
    Policy.addAttributes axis names p = some p' →
    p'.axes = p.axes ∧ p'.maxAttributeCreations = p.maxAttributeCreations ∧
    p'.lastAttributeValue.toNat = p.lastAttributeValue.toNat + names.length ∧
    names.Nodup ∧ (∀ x ∈ names, hget p.attributeToInt ⟨axis, x⟩ = none) ∧
    ValuesOk p'.attributeToInt p'.lastAttributeValue.toNat ∧
    (∀ a, (∃ h, hget p'.attributeToInt a = some h) ↔
      (∃ h, hget p.attributeToInt a = some h) ∨ a.axis = axis ∧ a.name ∈ names) ∧
    (∀ a h, hget p.attributeToInt a = some h → hget p'.attributeToInt a = some h)
  | [], p, p', hv, _, h => by
    simp only [Policy.addAttributes, Option.some.injEq] at h
    subst h
    simp [hv]
  | x :: names, p, p', hv, hb, h => by
    simp only [List.length_cons] at hb
    have hlast := succ_toNat (v := p.lastAttributeValue) (m := p.maxAttributeCreations) (by omega)
    unfold Policy.addAttributes at h
    cases hg : hget p.attributeToInt ⟨axis, x⟩ with
    | some _ => rw [hg] at h; simp at h
    | none =>
      rw [hg] at h
      simp only [hinsert_fresh hg] at h
      have hfresh := hget_eq_none.1 hg
      obtain ⟨e1, e2, e3, e4, e5, e6, e7, e8⟩ := addAttributes_spec axis names _ p' (by
        constructor
        · simp only [List.map_cons, List.nodup_cons]
          exact ⟨hfresh, hv.keysNodup⟩
        · intro a heap ha
          rw [show ((⟨axis, x⟩, [p.lastAttributeValue + 1]) :: p.attributeToInt) =
            hinsert p.attributeToInt ⟨axis, x⟩ [p.lastAttributeValue + 1] from (hinsert_fresh hg).symm,
            hget_hinsert] at ha
          split at ha
          · simp only [Option.some.injEq] at ha
            subst ha
            exact ⟨_, rfl, by simp⟩
          · exact hv.top a heap ha
        · simp only [List.map_cons, List.flatten_cons, List.singleton_append, List.nodup_cons]
          refine ⟨?_, hv.valuesNodup⟩
          intro hm
          have := (hv.range _ hm).2
          omega
        · intro v hvm
          simp only [List.map_cons, List.flatten_cons, List.singleton_append, List.mem_cons] at hvm
          simp only [hlast]
          rcases hvm with rfl | hvm
          · omega
          · have := hv.range v hvm
            omega) (by simp only [hlast]; omega) h
      simp only [← hinsert_fresh hg, hget_hinsert] at e1 e2 e3 e5 e7 e8
      refine ⟨e1, e2, by rw [e3, hlast, List.length_cons]; omega, ?_, ?_, e6, ?_, ?_⟩
      · rw [List.nodup_cons]
        refine ⟨?_, e4⟩
        intro hm
        have := e5 x hm
        simp at this
      · intro z hz
        rcases List.mem_cons.1 hz with rfl | hz
        · exact hg
        · have := e5 z hz
          split at this
          · simp at this
          · exact this
      · intro a
        rw [e7]
        constructor
        · rintro (⟨h, hh⟩ | ⟨h1, h2⟩)
          · split at hh
            · rename_i ha; right; rw [ha]; simp
            · left; exact ⟨h, hh⟩
          · right; exact ⟨h1, by simp [h2]⟩
        · rintro (⟨h, hh⟩ | ⟨h1, h2⟩)
          · left
            rw [if_neg]
            · exact ⟨h, hh⟩
            · rintro rfl; rw [hg] at hh; simp at hh
          · by_cases hax : a = ⟨axis, x⟩
            · left; rw [if_pos hax]; exact ⟨_, rfl⟩
            · right
              refine ⟨h1, ?_⟩
              rcases List.mem_cons.1 h2 with h2 | h2
              · exfalso; apply hax; cases a; simp_all
              · exact h2
      · intro a h hh
        apply e8
        rw [if_neg]
        · exact hh
        · rintro rfl; rw [hg] at hh; simp at hh

theorem Policy.WF.valuesOk {p : Policy} (hw : p.WF) : ValuesOk p.attributeToInt p.lastAttributeValue.toNat :=
  ⟨hw.keysNodup, hw.top, hw.valuesNodup, hw.range⟩

/-- Adding an axis. -/
theorem addAxis_spec {p p' : Policy} (hw : p.WF) {ax : PolicyAxis} (h : p.addAxis ax = some p') :
    p'.WF ∧ p'.maxAttributeCreations = p.maxAttributeCreations ∧
    p'.lastAttributeValue.toNat = p.lastAttributeValue.toNat + ax.attributes.length ∧
    (∀ a, p'.Known a ↔ p.Known a ∨ a.axis = ax.name ∧ a.name ∈ ax.attributes) ∧
    (∀ a heap, hget p.attributeToInt a = some heap → hget p'.attributeToInt a = some heap) := by
  unfold Policy.addAxis at h
  split at h
  · simp at h
  · rename_i hb
    cases hg : hget p.axes ax.name with
    | some _ => rw [hg] at h; simp at h
    | none =>
      rw [hg] at h
      simp only [] at h
      obtain ⟨e1, e2, e3, e4, e5, e6, e7, e8⟩ := addAttributes_spec ax.name ax.attributes
        { p with axes := hinsert p.axes ax.name (ax.attributes, ax.hierarchical) } p' hw.valuesOk
        (by dsimp only; omega) h
      simp only [hinsert_fresh hg] at e1 e2 e3 e5 e7 e8
      have haxes : ∀ k, hget p'.axes k = if k = ax.name then some (ax.attributes, ax.hierarchical) else hget p.axes k := by
        intro k
        rw [e1, ← hinsert_fresh hg, hget_hinsert]
      have hknown : ∀ a, p'.Known a ↔ p.Known a ∨ a.axis = ax.name ∧ a.name ∈ ax.attributes := by
        intro a
        unfold Policy.Known
        rw [haxes]
        constructor
        · rintro ⟨l, hh, h1, h2⟩
          split at h1
          · rename_i ha
            simp only [Option.some.injEq, Prod.mk.injEq] at h1
            right; exact ⟨ha, h1.1 ▸ h2⟩
          · left; exact ⟨l, hh, h1, h2⟩
        · rintro (⟨l, hh, h1, h2⟩ | ⟨h1, h2⟩)
          · refine ⟨l, hh, ?_, h2⟩
            rw [if_neg]
            · exact h1
            · intro ha; rw [ha, hg] at h1; simp at h1
          · exact ⟨_, _, by rw [if_pos h1], h2⟩
      refine ⟨⟨e6.keysNodup, ?_, ?_, ?_, e6.top, e6.valuesNodup, e6.range, ?_⟩, e2, e3, hknown, e8⟩
      · rw [e1, List.map_cons, List.nodup_cons]
        exact ⟨hget_eq_none.1 hg, hw.axesNodup⟩
      · intro k list hh hk
        rw [haxes] at hk
        split at hk
        · simp only [Option.some.injEq, Prod.mk.injEq] at hk
          rw [← hk.1]; exact e4
        · exact hw.namesNodup k list hh hk
      · intro a
        rw [hknown, e7, hw.known]
      · rw [e2, e3]; omega

theorem hget_setHeap (m : List (Attribute × List UInt32)) (a b : Attribute) (h : List UInt32) :
    hget (Policy.setHeap m a h) b = if b = a then (hget m a).map fun _ => h else hget m b := by
  induction m with
  | nil => simp [Policy.setHeap, hget]
  | cons q m ih =>
    unfold Policy.setHeap at ih ⊢
    unfold hget at ih ⊢
    rw [List.map_cons, List.find?_cons, List.find?_cons, List.find?_cons]
    by_cases hq : q.1 = a
    · simp only [hq, if_true, decide_true]
      by_cases hb : b = a
      · simp [hb]
      · rw [if_neg hb]
        have hab : ¬ a = b := fun h => hb h.symm
        simp only [hab, decide_false]
        rw [ih, if_neg hb]
    · rw [if_neg hq]
      by_cases hqb : q.1 = b
      · have hb : ¬ b = a := fun h => hq (hqb.trans h)
        simp [hqb, hb]
      · simp only [hqb, decide_false, hq]
        exact ih

theorem setHeap_keys (m : List (Attribute × List UInt32)) (a : Attribute) (h : List UInt32) :
    (Policy.setHeap m a h).map Prod.fst = m.map Prod.fst := by
  unfold Policy.setHeap
  rw [List.map_map]
  apply List.map_congr_left
  intro q _
  simp only [Function.comp]
  split
  · rename_i h; exact h.symm
  · rfl

theorem setHeap_values {m : List (Attribute × List UInt32)} {a : Attribute} {heap h' : List UInt32} {v : UInt32}
    (hn : (m.map Prod.fst).Nodup) (hg : hget m a = some heap) (hp : h'.Perm (v :: heap)) :
    ((Policy.setHeap m a h').map Prod.snd).flatten.Perm (v :: (m.map Prod.snd).flatten) := by
  induction m with
  | nil => simp [hget] at hg
  | cons q m ih =>
    rw [List.map_cons, List.nodup_cons] at hn
    by_cases hq : q.1 = a
    · have hq2 : q.2 = heap := by
        unfold hget at hg
        simpa [hq] using hg
      have hrest : Policy.setHeap m a h' = m := by
        unfold Policy.setHeap
        conv_rhs => rw [← List.map_id m]
        apply List.map_congr_left
        intro r hr
        rw [if_neg]
        · rfl
        · intro hra
          apply hn.1
          rw [hq, ← hra]
          exact List.mem_map.2 ⟨r, hr, rfl⟩
      have : Policy.setHeap (q :: m) a h' = (a, h') :: Policy.setHeap m a h' := by
        simp [Policy.setHeap, hq]
      rw [this, hrest]
      simp only [List.map_cons, List.flatten_cons, hq2]
      exact (hp.append_right _)
    · have hg' : hget m a = some heap := by
        unfold hget at hg ⊢
        simpa [hq] using hg
      have : Policy.setHeap (q :: m) a h' = q :: Policy.setHeap m a h' := by
        simp [Policy.setHeap, hq]
      rw [this]
      simp only [List.map_cons, List.flatten_cons]
      exact ((ih hn.2 hg').append_left q.2).trans List.perm_middle

/-- When rotation succeeds. -/
theorem rotate_isSome {p : Policy} (hw : p.WF) (a : Attribute) :
    (p.rotate a).isSome ↔ p.Known a ∧ p.lastAttributeValue.toNat < p.maxAttributeCreations.toNat := by
  rw [hw.known]
  unfold Policy.rotate
  have hb := hw.budget
  split
  · rename_i h
    rw [h]; simp
  · rename_i h
    have hne : p.lastAttributeValue.toNat ≠ p.maxAttributeCreations.toNat := fun h' => h (UInt32.toNat_inj.1 h')
    cases hg : hget p.attributeToInt a with
    | none => simp
    | some heap => simp; omega

/-- Rotating an attribute. -/
theorem rotate_spec {p p' : Policy} (hw : p.WF) {a : Attribute} (h : p.rotate a = some p') :
    p'.WF ∧ p'.axes = p.axes ∧ p'.maxAttributeCreations = p.maxAttributeCreations ∧
    p'.lastAttributeValue.toNat = p.lastAttributeValue.toNat + 1 ∧ p.Known a ∧
    p'.currentValue a = some p'.lastAttributeValue ∧
    (∀ b, b ≠ a → p'.currentValue b = p.currentValue b) ∧
    (∀ b w, p'.HasValue b w ↔ p.HasValue b w ∨ b = a ∧ w = p'.lastAttributeValue) := by
  have hs := (rotate_isSome hw a).1 (by rw [h]; rfl)
  have hlast := succ_toNat hs.2
  unfold Policy.rotate at h
  split at h
  · simp at h
  · cases hg : hget p.attributeToInt a with
    | none => rw [hg] at h; simp at h
    | some heap =>
      rw [hg] at h
      simp only [Option.some.injEq] at h
      subst h
      have hlt : ∀ w ∈ heap, w < p.lastAttributeValue + 1 := by
        intro w hwm
        have : w ∈ p.allValues := by
          unfold Policy.allValues
          exact List.mem_flatten.2 ⟨heap, List.mem_map.2 ⟨_, hget_mem hg, rfl⟩, hwm⟩
        have := (hw.range w this).2
        rw [UInt32.lt_iff_toNat_lt]; omega
      have hperm := heapPush_perm heap (p.lastAttributeValue + 1)
      have hvals := setHeap_values hw.keysNodup hg hperm
      have hhead := heapPush_head heap _ hlt
      have hget' := fun b => hget_setHeap p.attributeToInt a b (heapPush heap (p.lastAttributeValue + 1))
      refine ⟨⟨?_, hw.axesNodup, hw.namesNodup, ?_, ?_, ?_, ?_, ?_⟩, rfl, rfl, hlast, hs.1, ?_, ?_, ?_⟩
      · rw [setHeap_keys]; exact hw.keysNodup
      · intro b
        change p.Known b ↔ _
        rw [hw.known, hget', hg]
        split
        · rename_i hb; subst hb; simp [hg]
        · rfl
      · intro b hp' hb
        rw [hget', hg] at hb
        split at hb
        · simp only [Option.map_some, Option.some.injEq] at hb
          subst hb
          refine ⟨_, hhead, ?_⟩
          intro w hwm
          rcases List.mem_cons.1 (hperm.mem_iff.1 hwm) with rfl | hwm
          · exact UInt32.le_refl _
          · exact UInt32.le_of_lt (hlt w hwm)
        · exact hw.top b hp' hb
      · refine (hvals.nodup_iff).2 ?_
        rw [List.nodup_cons]
        refine ⟨?_, hw.valuesNodup⟩
        intro hm
        have := (hw.range _ hm).2
        omega
      · intro v hv
        simp only [hlast]
        rcases List.mem_cons.1 (hvals.mem_iff.1 hv) with rfl | hv
        · omega
        · have := hw.range v hv
          omega
      · simp only [hlast]; omega
      · unfold Policy.currentValue
        rw [hget', if_pos rfl, hg]
        simpa using hhead
      · intro b hb
        unfold Policy.currentValue
        rw [hget', if_neg hb]
      · intro b w
        unfold Policy.HasValue
        simp only [hget', hg]
        by_cases hb : b = a
        · subst hb
          simp only [if_true, Option.map_some, Option.some.injEq, exists_eq_left', hg, true_and]
          rw [hperm.mem_iff, List.mem_cons, or_comm]
        · simp [hb]

theorem hget_perm {κ α : Type} [DecidableEq κ] {m m' : List (κ × α)} (h : m'.Perm m) (hn : (m.map Prod.fst).Nodup) (k : κ) : hget m' k = hget m k := by
  have hn' : (m'.map Prod.fst).Nodup := (h.map Prod.fst).nodup_iff.2 hn
  apply Option.ext
  intro a
  rw [hget_eq_some hn', hget_eq_some hn, h.mem_iff]

theorem Policy.Reorders.wf {p p' : Policy} (h : p.Reorders p') (hw : p.WF) : p'.WF := by
  have ha := hget_perm h.axes hw.axesNodup
  have hv := hget_perm h.values hw.keysNodup
  have hall : p'.allValues.Perm p.allValues := (h.values.map Prod.snd).flatten
  refine ⟨(h.values.map Prod.fst).nodup_iff.2 hw.keysNodup, (h.axes.map Prod.fst).nodup_iff.2 hw.axesNodup, ?_, ?_, ?_, hall.nodup_iff.2 hw.valuesNodup, ?_, ?_⟩
  · intro ax list hh e
    exact hw.namesNodup ax list hh (by rw [← ha]; exact e)
  · intro a
    unfold Policy.Known
    simp only [ha, hv]
    exact hw.known a
  · intro a heap e
    exact hw.top a heap (by rw [← hv]; exact e)
  · intro v e
    rw [h.last]
    exact hw.range v (hall.mem_iff.1 e)
  · rw [h.last, h.max]
    exact hw.budget

theorem reachable_wf {p : Policy} (h : p.Reachable) : p.WF := by
  induction h with
  | new max => exact new_wf max
  | addAxis ax _ h ih => exact (addAxis_spec ih h).1
  | rotate a _ h ih => exact (rotate_spec ih h).1
  | reorder _ h ih => exact h.wf ih

/-- Effect of a sequence of rotations. -/
theorem rotations_spec {p p' : Policy} {l : List Attribute} (h : Policy.Rotations p l p') (hw : p.WF) :
    p'.WF ∧ p'.axes = p.axes ∧ p'.maxAttributeCreations = p.maxAttributeCreations ∧
    p'.lastAttributeValue.toNat = p.lastAttributeValue.toNat + l.length ∧
    (∀ b w, p.HasValue b w → p'.HasValue b w) ∧
    (∀ b, b ∉ l → p'.currentValue b = p.currentValue b) ∧
    (∀ b ∈ l, ∃ v, p'.currentValue b = some v ∧ p.lastAttributeValue.toNat < v.toNat) := by
  induction h with
  | nil p => exact ⟨hw, rfl, rfl, rfl, fun _ _ h => h, fun _ _ => rfl, by simp⟩
  | @cons p p1 p2 a l h1 _ ih =>
    obtain ⟨e1, e2, e3, e4, e5, e6, e7, e8⟩ := rotate_spec hw h1
    obtain ⟨g1, g2, g3, g4, g5, g6, g7⟩ := ih e1
    refine ⟨g1, g2.trans e2, g3.trans e3, ?_, ?_, ?_, ?_⟩
    · rw [g4, e4, List.length_cons]; omega
    · intro b w hbw; exact g5 b w ((e8 b w).2 (Or.inl hbw))
    · intro b hb
      rw [List.mem_cons, not_or] at hb
      rw [g6 b hb.2, e7 b hb.1]
    · intro b hb
      by_cases hbl : b ∈ l
      · obtain ⟨v, hv, hlt⟩ := g7 b hbl
        exact ⟨v, hv, by omega⟩
      · rcases List.mem_cons.1 hb with rfl | hb
        · rw [g6 b hbl]
          exact ⟨_, e6, by omega⟩
        · exact absurd hb hbl

theorem Policy.covers_axes {p p' : Policy} (h : p'.axes = p.axes) (a b : Attribute) : p'.Covers a b ↔ p.Covers a b := by
  unfold Policy.Covers; rw [h]

theorem Policy.known_axes {p p' : Policy} (h : p'.axes = p.axes) (a : Attribute) : p'.Known a ↔ p.Known a := by
  unfold Policy.Known; rw [h]

theorem AccessPolicy.sat_congr {p : Policy} {S S' : Attribute → Prop} (h : ∀ b, p.Known b → (S b ↔ S' b)) :
    ∀ ap : AccessPolicy, ap.Sat p S ↔ ap.Sat p S'
  | .attr a => by
    constructor
    · rintro ⟨b, h1, h2⟩; exact ⟨b, h1, (h b h1.known.2).1 h2⟩
    · rintro ⟨b, h1, h2⟩; exact ⟨b, h1, (h b h1.known.2).2 h2⟩
  | .and l r => and_congr (AccessPolicy.sat_congr h l) (AccessPolicy.sat_congr h r)
  | .or l r => or_congr (AccessPolicy.sat_congr h l) (AccessPolicy.sat_congr h r)
  | .all => by
    constructor
    · rintro ⟨b, h1, h2⟩; exact ⟨b, h1, (h b h1).1 h2⟩
    · rintro ⟨b, h1, h2⟩; exact ⟨b, h1, (h b h1).2 h2⟩

theorem AccessPolicy.sat_axes {p p' : Policy} (h : p'.axes = p.axes) (S : Attribute → Prop) :
    ∀ ap : AccessPolicy, ap.Sat p' S ↔ ap.Sat p S
  | .attr a => by simp only [AccessPolicy.Sat, Policy.covers_axes h]
  | .and l r => and_congr (AccessPolicy.sat_axes h S l) (AccessPolicy.sat_axes h S r)
  | .or l r => or_congr (AccessPolicy.sat_axes h S l) (AccessPolicy.sat_axes h S r)
  | .all => by simp only [AccessPolicy.Sat, Policy.known_axes h]

theorem AccessPolicy.grants_axes {p p' : Policy} (h : p'.axes = p.axes) (b : Attribute) :
    ∀ ap : AccessPolicy, ap.Grants p' b ↔ ap.Grants p b
  | .attr a => Policy.covers_axes h a b
  | .and l r => or_congr (AccessPolicy.grants_axes h b l) (AccessPolicy.grants_axes h b r)
  | .or l r => or_congr (AccessPolicy.grants_axes h b l) (AccessPolicy.grants_axes h b r)
  | .all => Policy.known_axes h b

/-- Values of a ciphertext made under a later policy, seen from the policy `p` of the key: exactly the attributes
not rotated in between. -/
theorem hasValue_later {p p' : Policy} {l : List Attribute} (hr : Policy.Rotations p l p') (hw : p.WF)
    {atts : List Attribute} {vs : List UInt32} (hvs : ∀ v, v ∈ vs ↔ ∃ a ∈ atts, p'.currentValue a = some v)
    {b : Attribute} (hb : p.Known b) : (∃ v, p.HasValue b v ∧ v ∈ vs) ↔ b ∈ atts ∧ b ∉ l := by
  obtain ⟨g1, g2, g3, g4, g5, g6, g7⟩ := rotations_spec hr hw
  constructor
  · rintro ⟨v, hv, hm⟩
    obtain ⟨a, ha, hc⟩ := (hvs v).1 hm
    have hab : a = b := (Policy.currentValue_hasValue hc).inj g1 (g5 b v hv)
    subst hab
    refine ⟨ha, fun hal => ?_⟩
    obtain ⟨v', hv', hlt⟩ := g7 a hal
    rw [hc] at hv'
    simp only [Option.some.injEq] at hv'
    subst hv'
    have := (hw.range v ((Policy.mem_allValues hw).2 ⟨a, hv⟩)).2
    omega
  · rintro ⟨h1, h2⟩
    obtain ⟨v, hc, hv⟩ := Policy.currentValue_known hw hb
    exact ⟨v, hv, (hvs v).2 ⟨b, h1, by rw [g6 b h2]; exact hc⟩⟩

/-- Values of a ciphertext made under an earlier policy `p`, seen from the policy `p'` of the key. -/
theorem hasValue_earlier {p p' : Policy} {l : List Attribute} (hr : Policy.Rotations p l p') (hw : p.WF)
    {atts : List Attribute} {vs : List UInt32} (hvs : ∀ v, v ∈ vs ↔ ∃ a ∈ atts, p.currentValue a = some v)
    {b : Attribute} (hb : p'.Known b) : (∃ v, p'.HasValue b v ∧ v ∈ vs) ↔ b ∈ atts := by
  obtain ⟨g1, g2, g3, g4, g5, g6, g7⟩ := rotations_spec hr hw
  constructor
  · rintro ⟨v, hv, hm⟩
    obtain ⟨a, ha, hc⟩ := (hvs v).1 hm
    have hab : a = b := (g5 a v (Policy.currentValue_hasValue hc)).inj g1 hv
    exact hab ▸ ha
  · intro h1
    obtain ⟨v, hc, hv⟩ := Policy.currentValue_known hw ((Policy.known_axes g2 b).1 hb)
    exact ⟨v, g5 b v hv, (hvs v).2 ⟨b, h1, hc⟩⟩

end Abe

import Verif.Proofs.History

/-!
# Reordering the hash maps of a policy

Every operation gives the same result, up to the order of the hash maps of the policies it returns.
-/

namespace Abe

set_option linter.unusedSectionVars false

namespace Policy.Reorders

variable {p p' : Policy}

theorem refl (p : Policy) : p.Reorders p := ⟨rfl, rfl, .refl _, .refl _⟩

theorem symm (h : p.Reorders p') : p'.Reorders p := ⟨h.last.symm, h.max.symm, h.axes.symm, h.values.symm⟩

theorem trans {p'' : Policy} (h : p.Reorders p') (h' : p'.Reorders p'') : p.Reorders p'' :=
  ⟨h'.last.trans h.last, h'.max.trans h.max, h'.axes.trans h.axes, h'.values.trans h.values⟩

theorem hget_axes (h : p.Reorders p') (hw : p.WF) (k : String) : hget p'.axes k = hget p.axes k := hget_perm h.axes hw.axesNodup k

theorem hget_values (h : p.Reorders p') (hw : p.WF) (a : Attribute) : hget p'.attributeToInt a = hget p.attributeToInt a :=
  hget_perm h.values hw.keysNodup a

theorem covers (h : p.Reorders p') (hw : p.WF) (a b : Attribute) : p'.Covers a b ↔ p.Covers a b := by
  unfold Policy.Covers; simp only [h.hget_axes hw]

theorem known (h : p.Reorders p') (hw : p.WF) (a : Attribute) : p'.Known a ↔ p.Known a := by
  unfold Policy.Known; simp only [h.hget_axes hw]

theorem heapNode (h : p.Reorders p') (hw : p.WF) (of a : Attribute) : heapNode p' of a = heapNode p of a := by
  unfold Abe.heapNode; rw [h.hget_values hw]

theorem policyToNode (h : p.Reorders p') (hw : p.WF) (a : Attribute) : policyToNode p' a = policyToNode p a := by
  unfold Abe.policyToNode
  rw [h.hget_axes hw]
  simp only [h.heapNode hw]

theorem policyToFormula (h : p.Reorders p') (hw : p.WF) : ∀ ap : AccessPolicy, policyToFormula p' ap = policyToFormula p ap
  | .attr a => h.policyToNode hw a
  | .and l r => by unfold Abe.policyToFormula; rw [policyToFormula h hw l, policyToFormula h hw r]
  | .or l r => by unfold Abe.policyToFormula; rw [policyToFormula h hw l, policyToFormula h hw r]
  | .all => rfl

theorem policyToMsp (h : p.Reorders p') (hw : p.WF) {ap : AccessPolicy} (hne : ap ≠ .all) : policyToMsp p' ap = policyToMsp p ap := by
  unfold Abe.policyToMsp
  cases ap <;> first | exact absurd rfl hne | (simp only [h.policyToFormula hw])

theorem currentValue (h : p.Reorders p') (hw : p.WF) (a : Attribute) : p'.currentValue a = p.currentValue a := by
  unfold Policy.currentValue; rw [h.hget_values hw]

theorem attributesValues (h : p.Reorders p') (hw : p.WF) (atts : List Attribute) : p'.attributesValues atts = p.attributesValues atts := by
  unfold Policy.attributesValues; simp only [h.currentValue hw]

end Policy.Reorders

theorem hinsert_perm {κ α : Type} [DecidableEq κ] {m m' : List (κ × α)} (h : m'.Perm m) (k : κ) (a : α) : (hinsert m' k a).Perm (hinsert m k a) :=
  (h.filter _).cons _

theorem hinsert_nodup {κ α : Type} [DecidableEq κ] {m : List (κ × α)} (h : (m.map Prod.fst).Nodup) (k : κ) (a : α) : ((hinsert m k a).map Prod.fst).Nodup := by
  unfold hinsert
  rw [List.map_cons, List.nodup_cons]
  refine ⟨?_, ?_⟩
  · intro hm
    obtain ⟨x, hx, rfl⟩ := List.mem_map.1 hm
    simpa using (List.mem_filter.1 hx).2
  · exact (List.Sublist.map Prod.fst List.filter_sublist).nodup h

theorem addAttributes_reorders (axis : String) : ∀ (names : List String) {p p' q : Policy}, p.Reorders p' → (p.attributeToInt.map Prod.fst).Nodup →
    Policy.addAttributes axis names p = some q → ∃ q', Policy.addAttributes axis names p' = some q' ∧ q.Reorders q'
  | [], p, p', q, h, _, e => by
    simp only [Policy.addAttributes, Option.some.injEq] at e
    exact ⟨p', rfl, e ▸ h⟩
  | name :: names, p, p', q, h, hn, e => by
    unfold Policy.addAttributes at e ⊢
    dsimp only at e ⊢
    rw [hget_perm h.values hn, h.last]
    split at e
    · simp at e
    · rename_i hg
      refine addAttributes_reorders axis names ?_ ?_ e
      · exact ⟨rfl, h.max, h.axes, hinsert_perm h.values _ _⟩
      · exact hinsert_nodup hn _ _

theorem addAxis_reorders {p p' q : Policy} (h : p.Reorders p') (hw : p.WF) {ax : PolicyAxis} (e : p.addAxis ax = some q) :
    ∃ q', p'.addAxis ax = some q' ∧ q.Reorders q' := by
  unfold Policy.addAxis at e ⊢
  rw [h.last, h.max, h.hget_axes hw]
  split at e
  · simp at e
  · rename_i hb
    rw [if_neg hb]
    split at e
    · simp at e
    · rename_i hg
      exact addAttributes_reorders _ _ (p := { p with axes := hinsert p.axes ax.name (ax.attributes, ax.hierarchical) })
        ⟨rfl, rfl, hinsert_perm h.axes _ _, h.values⟩ hw.keysNodup e

theorem rotate_reorders {p p' q : Policy} (h : p.Reorders p') (hw : p.WF) {a : Attribute} (e : p.rotate a = some q) :
    ∃ q', p'.rotate a = some q' ∧ q.Reorders q' := by
  unfold Policy.rotate at e ⊢
  rw [h.last, h.max, h.hget_values hw]
  split at e
  · simp at e
  · rename_i hb
    rw [if_neg hb]
    split at e
    · simp at e
    · simp only [Option.some.injEq] at e
      exact ⟨_, rfl, e ▸ ⟨rfl, rfl, h.axes, h.values.map _⟩⟩

theorem change_reorders {p p' q : Policy} (h : p.Reorders p') (hw : p.WF) {ch : Change} (e : p.change ch = some q) :
    ∃ q', p'.change ch = some q' ∧ q.Reorders q' := by
  cases ch with
  | rotate a => exact rotate_reorders h hw e
  | addAxis ax => exact addAxis_reorders h hw e

theorem change_wf {p q : Policy} (hw : p.WF) {ch : Change} (e : p.change ch = some q) : q.WF := by
  cases ch with
  | rotate a => exact (rotate_spec hw e).1
  | addAxis ax => exact (addAxis_spec hw e).1

/-- Two histories with the same changes, whatever the orders of the hash maps in them, end with the same policy up to the order of its hash maps. -/
theorem evolves_confluent {p q : Policy} {l : List Change} (he : p.Evolves l q) : ∀ {p' q' : Policy}, p.WF → p.Reorders p' → p'.Evolves l q' →
    q.Reorders q' := by
  induction he with
  | nil p =>
    intro p' q' hw h he'
    generalize hl : ([] : List Change) = l at he'
    induction he' generalizing p with
    | nil => exact h
    | cons => simp at hl
    | reorder hr _ ih => exact ih _ hw (h.trans hr) hl
  | @cons p p1 p2 ch l hc _ ih =>
    intro p' q' hw h he'
    generalize hl : ch :: l = l' at he'
    induction he' generalizing p with
    | nil => simp at hl
    | cons hc' he'' =>
      simp only [List.cons.injEq] at hl
      obtain ⟨rfl, rfl⟩ := hl
      obtain ⟨p1', e, hr⟩ := change_reorders h hw hc
      rw [hc'] at e
      rw [Option.some.inj e] at he''
      exact ih (change_wf hw hc) hr he''
    | reorder hr _ ih' => exact ih' hc hw (h.trans hr) hl
  | reorder hr _ ih =>
    intro p' q' hw h he'
    exact ih (hr.wf hw) (hr.symm.trans h) he'

/-- A history is possible whatever the orders of the hash maps. -/
theorem evolves_reorders {p q : Policy} {l : List Change} (he : p.Evolves l q) : ∀ {p' : Policy}, p.WF → p.Reorders p' →
    ∃ q', p'.Evolves l q' ∧ q.Reorders q' := by
  induction he with
  | nil p => exact fun _ h => ⟨_, .nil _, h⟩
  | cons hc _ ih =>
    intro p' hw h
    obtain ⟨p1', e, hr⟩ := change_reorders h hw hc
    obtain ⟨q', e', hr'⟩ := ih (change_wf hw hc) hr
    exact ⟨q', .cons e e', hr'⟩
  | reorder hr _ ih => exact fun hw h => ih (hr.wf hw) (hr.symm.trans h)

end Abe

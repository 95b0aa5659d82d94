import Verif.Spec.History
import Verif.Proofs.Engine

/-! Evolution of policies, and keys delegated under a policy of another moment. -/

namespace Abe

set_option linter.unusedSectionVars false

/-- What the changes from `p` to `p'` keep. -/
structure Later (p p' : Policy) (l : List Change) : Prop where
  wf : p'.WF
  axes : ∀ k x, hget p.axes k = some x → hget p'.axes k = some x
  max : p'.maxAttributeCreations = p.maxAttributeCreations
  last : p.lastAttributeValue.toNat ≤ p'.lastAttributeValue.toNat
  heap : ∀ b h, hget p.attributeToInt b = some h → ¬ Rotated l b → hget p'.attributeToInt b = some h
  mono : ∀ b w, p.HasValue b w → p'.HasValue b w
  fresh : ∀ b w, p'.HasValue b w → p.HasValue b w ∨ p.lastAttributeValue.toNat < w.toNat
  rotated : ∀ b, Rotated l b → ∃ v, p'.currentValue b = some v ∧ p.lastAttributeValue.toNat < v.toNat

theorem addAxis_axes {p p' : Policy} {ax : PolicyAxis} (hw : p.WF) (h : p.addAxis ax = some p') (k : String) (x : List String × Bool)
    (hx : hget p.axes k = some x) : hget p'.axes k = some x := by
  unfold Policy.addAxis at h
  split at h
  · simp at h
  · rename_i hb
    cases hg : hget p.axes ax.name with
    | some _ => rw [hg] at h; simp at h
    | none =>
      rw [hg] at h
      simp only [] at h
      obtain ⟨e1, _⟩ := addAttributes_spec ax.name ax.attributes
        { p with axes := hinsert p.axes ax.name (ax.attributes, ax.hierarchical) } p' hw.valuesOk
        (by dsimp only; omega) h
      rw [e1]
      dsimp only
      rw [hget_hinsert, if_neg]
      · exact hx
      · rintro rfl; rw [hg] at hx; simp at hx

theorem addAttributes_fresh (axis : String) : ∀ (names : List String) (p p' : Policy),
    names.length + p.lastAttributeValue.toNat ≤ p.maxAttributeCreations.toNat →
    Policy.addAttributes axis names p = some p' →
    ∀ b w, p'.HasValue b w → p.HasValue b w ∨ p.lastAttributeValue.toNat < w.toNat
  | [], p, p', _, h, b, w, hb => by
    simp only [Policy.addAttributes, Option.some.injEq] at h
    subst h; exact Or.inl hb
  | x :: names, p, p', hlen, h, b, w, hb => by
    simp only [List.length_cons] at hlen
    have hlast := succ_toNat (v := p.lastAttributeValue) (m := p.maxAttributeCreations) (by omega)
    unfold Policy.addAttributes at h
    cases hg : hget p.attributeToInt ⟨axis, x⟩ with
    | some _ => rw [hg] at h; simp at h
    | none =>
      rw [hg] at h
      simp only [] at h
      rcases addAttributes_fresh axis names _ p' (by simp only [hlast]; omega) h b w hb with ⟨heap, h1, h2⟩ | h1
      · dsimp only at h1
        rw [hget_hinsert] at h1
        split at h1
        · simp only [Option.some.injEq] at h1
          subst h1
          simp only [List.mem_singleton] at h2
          right; rw [h2]; omega
        · exact Or.inl ⟨heap, h1, h2⟩
      · right
        simp only [hlast] at h1
        omega

theorem rotate_heap {p p' : Policy} {a b : Attribute} (h : p.rotate a = some p') (hb : b ≠ a) :
    hget p'.attributeToInt b = hget p.attributeToInt b := by
  unfold Policy.rotate at h
  split at h
  · simp at h
  · cases hg : hget p.attributeToInt a with
    | none => rw [hg] at h; simp at h
    | some heap =>
      rw [hg] at h
      simp only [Option.some.injEq] at h
      subst h
      dsimp only
      rw [hget_setHeap, if_neg hb]

theorem change_later {p p' : Policy} (hw : p.WF) {ch : Change} (h : p.change ch = some p') : Later p p' [ch] := by
  cases ch with
  | rotate a =>
    simp only [Policy.change] at h
    obtain ⟨e1, e2, e3, e4, e5, e6, e7, e8⟩ := rotate_spec hw h
    refine ⟨e1, fun k x hx => by rw [e2]; exact hx, e3, by omega, ?_, fun b w hb => (e8 b w).2 (Or.inl hb), ?_, ?_⟩
    · intro b hp hb hn
      have hba : b ≠ a := by
        rintro rfl; exact hn (by simp [Rotated])
      rw [rotate_heap h hba]; exact hb
    · intro b w hb
      rcases (e8 b w).1 hb with hb | ⟨_, rfl⟩
      · exact Or.inl hb
      · right; omega
    · intro b hb
      simp only [Rotated, List.mem_singleton, Change.rotate.injEq] at hb
      subst hb
      exact ⟨_, e6, by omega⟩
  | addAxis ax =>
    simp only [Policy.change] at h
    obtain ⟨e1, e2, e3, e4, e5⟩ := addAxis_spec hw h
    refine ⟨e1, addAxis_axes hw h, e2, by omega, fun b hp hb _ => e5 b hp hb, ?_, ?_, ?_⟩
    · rintro b w ⟨hp, h1, h2⟩
      exact ⟨hp, e5 b hp h1, h2⟩
    · intro b w hb
      unfold Policy.addAxis at h
      split at h
      · simp at h
      · rename_i hbud
        cases hg : hget p.axes ax.name with
        | some _ => rw [hg] at h; simp at h
        | none =>
          rw [hg] at h
          simp only [] at h
          exact addAttributes_fresh ax.name ax.attributes _ p' (by dsimp only; omega) h b w hb
    · intro b hb
      simp [Rotated] at hb

theorem evolves_later {p p' : Policy} {l : List Change} (h : p.Evolves l p') (hw : p.WF) : Later p p' l := by
  induction h with
  | nil p =>
    exact ⟨hw, fun _ _ h => h, rfl, le_refl _, fun _ _ h _ => h, fun _ _ h => h, fun _ _ h => Or.inl h, by simp [Rotated]⟩
  | @cons p p1 p2 ch l h1 _ ih =>
    have a := change_later hw h1
    have b := ih a.wf
    have al := a.last
    refine ⟨b.wf, fun k x hx => b.axes k x (a.axes k x hx), b.max.trans a.max, a.last.trans b.last, ?_, fun x w hx => b.mono x w (a.mono x w hx), ?_, ?_⟩
    · intro x hp hx hn
      refine b.heap x hp (a.heap x hp hx fun hr => hn ?_) fun hr => hn ?_
      · simp only [Rotated, List.mem_singleton] at hr
        simp [Rotated, hr]
      · exact List.mem_cons_of_mem _ hr
    · intro x w hx
      rcases b.fresh x w hx with hx | hx
      · exact a.fresh x w hx
      · right; omega
    · intro x hx
      by_cases hl : Rotated l x
      · obtain ⟨v, hv, hlt⟩ := b.rotated x hl
        exact ⟨v, hv, by omega⟩
      · have hch : Rotated [ch] x := by
          rcases List.mem_cons.1 hx with hx | hx
          · simp [Rotated, hx]
          · exact absurd hx hl
        obtain ⟨v, hv, hlt⟩ := a.rotated x hch
        obtain ⟨hp, g1, g2⟩ := Policy.currentValue_iff.1 hv
        exact ⟨v, Policy.currentValue_iff.2 ⟨hp, b.heap x hp g1 hl, g2⟩, hlt⟩
  | @reorder p p1 p2 l h1 _ ih =>
    have b := ih (h1.wf hw)
    have ha := hget_perm h1.axes hw.axesNodup
    have hv := hget_perm h1.values hw.keysNodup
    have hval : ∀ x w, p1.HasValue x w ↔ p.HasValue x w := fun x w => by unfold Policy.HasValue; rw [hv]
    refine ⟨b.wf, fun k x hx => b.axes k x (by rw [ha]; exact hx), b.max.trans h1.max, by rw [← h1.last]; exact b.last, ?_, ?_, ?_, ?_⟩
    · exact fun x hp hx hn => b.heap x hp (by rw [hv]; exact hx) hn
    · exact fun x w hx => b.mono x w ((hval x w).2 hx)
    · intro x w hx
      rw [← hval, ← h1.last]
      exact b.fresh x w hx
    · rw [← h1.last]
      exact b.rotated

theorem evolves_reachable {p p' : Policy} {l : List Change} (h : p.Evolves l p') (hr : p.Reachable) : p'.Reachable := by
  induction h with
  | nil p => exact hr
  | @cons p p1 p2 ch l h1 _ ih =>
    apply ih
    cases ch with
    | rotate a => exact .rotate a hr h1
    | addAxis ax => exact .addAxis ax hr h1
  | reorder h1 _ ih => exact ih (.reorder hr h1)

namespace Later
variable {p p' : Policy} {l : List Change}

theorem known (h : Later p p' l) {b : Attribute} (hb : p.Known b) : p'.Known b := by
  obtain ⟨list, hh, h1, h2⟩ := hb
  exact ⟨list, hh, h.axes _ _ h1, h2⟩

theorem covers (h : Later p p' l) {a b : Attribute} (ha : p.Known a) : p'.Covers a b ↔ p.Covers a b := by
  obtain ⟨list, hh, h1, h2⟩ := ha
  unfold Policy.Covers
  rw [h1, h.axes _ _ h1]

theorem grants (h : Later p p' l) {b : Attribute} : ∀ {ap : AccessPolicy}, ap.Grants p b → ap.Grants p' b
  | .attr _, hb => (h.covers (Policy.Covers.known hb).1).2 hb
  | .and _ _, hb => hb.imp h.grants h.grants
  | .or _ _, hb => hb.imp h.grants h.grants
  | .all, hb => h.known hb

/-- For access policies about attributes known before, nothing else is granted after. -/
theorem grants_iff (h : Later p p' l) {b : Attribute} : ∀ {ap : AccessPolicy}, ap.NoAll → (∀ a, ap.Mentions a → p.Known a) →
    (ap.Grants p' b ↔ ap.Grants p b)
  | .attr a, _, hm => h.covers (hm a rfl)
  | .and _ _, hn, hm => or_congr (h.grants_iff hn.1 fun a ha => hm a (Or.inl ha)) (h.grants_iff hn.2 fun a ha => hm a (Or.inr ha))
  | .or _ _, hn, hm => or_congr (h.grants_iff hn.1 fun a ha => hm a (Or.inl ha)) (h.grants_iff hn.2 fun a ha => hm a (Or.inr ha))
  | .all, hn, _ => hn.elim

theorem shares {K : Type} [Field K] (h : Later p p' l) {lam : UInt32 → K} : ∀ {ap : AccessPolicy} {y : K}, ap.Shares p' lam y → ap.Shares p lam y
  | .attr _, _, hs => fun b hb v hv => hs b ((h.covers hb.known.1).2 hb) v (h.mono b v hv)
  | .and _ _, _, ⟨y1, y2, h0, h1, h2⟩ => ⟨y1, y2, h0, h.shares h1, h.shares h2⟩
  | .or _ _, _, ⟨h1, h2⟩ => ⟨h.shares h1, h.shares h2⟩
  | .all, _, hs => fun b v hv => hs b v (h.mono b v hv)

theorem heapNode (h : Later p p' l) {of b : Attribute} {hp : List UInt32} (hb : hget p.attributeToInt b = some hp) (hn : ¬ Rotated l b) :
    heapNode p' of b = Abe.heapNode p of b := by
  unfold Abe.heapNode
  rw [hb, h.heap b hp hb hn]

theorem policyToNode (h : Later p p' l) (hw : p.WF) {a : Attribute} (ha : p.Known a) (hn : ∀ b, p.Covers a b → ¬ Rotated l b) :
    policyToNode p' a = Abe.policyToNode p a := by
  obtain ⟨list, hier, h1, h2⟩ := ha
  obtain ⟨s, t, rfl, hs⟩ := List.eq_append_cons_of_mem h2
  have hheap : ∀ x ∈ s ++ a.name :: t, ∃ heap, hget p.attributeToInt ⟨a.axis, x⟩ = some heap := by
    intro x hx
    exact (hw.known ⟨a.axis, x⟩).1 ⟨_, _, h1, hx⟩
  have ha' : Abe.heapNode p' a a = Abe.heapNode p a a := by
    obtain ⟨hp, hh⟩ := hheap a.name (by simp)
    exact h.heapNode hh (hn a ⟨s, t, hier, h1, hs, rfl, Or.inl rfl⟩)
  have hidx : (s ++ a.name :: t).findIdx? (· == a.name) = some s.length := by
    rw [List.findIdx?_append]
    have : s.findIdx? (· == a.name) = none := by
      rw [List.findIdx?_eq_none_iff]
      intro x hx
      simp only [beq_eq_false_iff_ne]
      rintro rfl; exact hs hx
    rw [this]
    simp [List.findIdx?_cons]
  unfold Abe.policyToNode
  rw [h1, h.axes _ _ h1]
  dsimp only
  rw [if_pos (by simp), if_pos (by simp), hidx, ha']
  simp only [Res.ofOption, Res.ok_bind]
  cases hier with
  | false => rfl
  | true =>
    simp only [if_true]
    rw [List.take_append_of_le_length (Nat.le_refl _), List.take_length]
    congr 1
    funext val
    have hlow : ∀ x ∈ s, Abe.heapNode p' a ⟨a.axis, x⟩ = Abe.heapNode p a ⟨a.axis, x⟩ := by
      intro x hx
      obtain ⟨hp, hh⟩ := hheap x (by simp [hx])
      exact h.heapNode hh (hn _ ⟨s, t, true, h1, hs, rfl, Or.inr ⟨rfl, hx⟩⟩)
    clear hidx hheap hs h1 h2
    induction s generalizing val with
    | nil => rfl
    | cons x s ih =>
      rw [foldRes_cons, foldRes_cons, hlow x (by simp)]
      congr 1
      funext v
      exact ih v fun y hy => hlow y (by simp [hy])

theorem policyToFormula (h : Later p p' l) (hw : p.WF) : ∀ {ap : AccessPolicy}, ap.NoAll → (∀ a, ap.Mentions a → p.Known a) →
    (∀ b, ap.Grants p b → ¬ Rotated l b) → policyToFormula p' ap = Abe.policyToFormula p ap
  | .attr a, _, hm, hg => h.policyToNode hw (hm a rfl) hg
  | .and x y, hn, hm, hg => by
    unfold Abe.policyToFormula
    rw [h.policyToFormula hw hn.1 (fun a ha => hm a (Or.inl ha)) fun b hb => hg b (Or.inl hb),
      h.policyToFormula hw hn.2 (fun a ha => hm a (Or.inr ha)) fun b hb => hg b (Or.inr hb)]
  | .or x y, hn, hm, hg => by
    unfold Abe.policyToFormula
    rw [h.policyToFormula hw hn.1 (fun a ha => hm a (Or.inl ha)) fun b hb => hg b (Or.inl hb),
      h.policyToFormula hw hn.2 (fun a ha => hm a (Or.inr ha)) fun b hb => hg b (Or.inr hb)]
  | .all, hn, _, _ => hn.elim

theorem policyToMsp (h : Later p p' l) (hw : p.WF) {ap : AccessPolicy} (hne : ap ≠ .all) (hv : ap.Valid p)
    (hg : ∀ b, ap.Grants p b → ¬ Rotated l b) : policyToMsp p' ap = Abe.policyToMsp p ap := by
  cases ap with
  | all => exact absurd rfl hne
  | attr a => dsimp only [Abe.policyToMsp]; rw [h.policyToFormula hw hv.1 hv.2.1 hg]
  | and x y => dsimp only [Abe.policyToMsp]; rw [h.policyToFormula hw hv.1 hv.2.1 hg]
  | or x y => dsimp only [Abe.policyToMsp]; rw [h.policyToFormula hw hv.1 hv.2.1 hg]

/-- Values of a ciphertext made after, seen from before. -/
theorem hasValue_later (h : Later p p' l) (hw : p.WF) {atts : List Attribute} {vs : List UInt32}
    (hvs : ∀ v, v ∈ vs ↔ ∃ a ∈ atts, p'.currentValue a = some v) {b : Attribute} (hb : p.Known b) :
    (∃ v, p.HasValue b v ∧ v ∈ vs) ↔ b ∈ atts ∧ ¬ Rotated l b := by
  constructor
  · rintro ⟨v, hv, hm⟩
    obtain ⟨a, ha, hc⟩ := (hvs v).1 hm
    have hab : a = b := (Policy.currentValue_hasValue hc).inj h.wf (h.mono b v hv)
    subst hab
    refine ⟨ha, fun hal => ?_⟩
    obtain ⟨v', hv', hlt⟩ := h.rotated a hal
    rw [hc] at hv'
    simp only [Option.some.injEq] at hv'
    subst hv'
    have := (hw.range v ((Policy.mem_allValues hw).2 ⟨a, hv⟩)).2
    omega
  · rintro ⟨h1, h2⟩
    obtain ⟨v, hc, hv⟩ := Policy.currentValue_known hw hb
    obtain ⟨hp, g1, g2⟩ := Policy.currentValue_iff.1 hc
    exact ⟨v, hv, (hvs v).2 ⟨b, h1, Policy.currentValue_iff.2 ⟨hp, h.heap b hp g1 h2, g2⟩⟩⟩

/-- Values of a ciphertext made before, seen from after. -/
theorem hasValue_earlier (h : Later p p' l) (hw : p.WF) {atts : List Attribute} {vs : List UInt32}
    (hvs : ∀ v, v ∈ vs ↔ ∃ a ∈ atts, p.currentValue a = some v) (hk : ∀ a ∈ atts, p.Known a) {b : Attribute} :
    (∃ v, p'.HasValue b v ∧ v ∈ vs) ↔ b ∈ atts := by
  constructor
  · rintro ⟨v, hv, hm⟩
    obtain ⟨a, ha, hc⟩ := (hvs v).1 hm
    have hab : a = b := (h.mono a v (Policy.currentValue_hasValue hc)).inj h.wf hv
    exact hab ▸ ha
  · intro h1
    obtain ⟨v, hc, hv⟩ := Policy.currentValue_known hw (hk b h1)
    exact ⟨v, h.mono b v hv, (hvs v).2 ⟨b, h1, hc⟩⟩

end Later

variable {K P Q QP T : Type} [Field K] [DecidableEq K] [AddCommGroup P] [Module K P] [AddCommGroup Q] [Module K Q]
  [AddCommGroup T] [Module K T]

theorem engineDelegate_msp (c : Curve K P Q QP T) (p : Policy) (del : DelegationKey Q) (k : DecryptionKey K QP Q) {ap : AccessPolicy} (hne : ap ≠ .all)
    (r : Nat → K) : engineDelegateUserKey (bls c) p del k ap r = (do let m ← policyToMsp p ap; keyDelegation (bls c) m k del r) := by
  cases ap with
  | all => exact absurd rfl hne
  | attr a => unfold engineDelegateUserKey; simp only []; cases policyToMsp p (.attr a) <;> rfl
  | and x y => unfold engineDelegateUserKey; simp only []; cases policyToMsp p (.and x y) <;> rfl
  | or x y => unfold engineDelegateUserKey; simp only []; cases policyToMsp p (.or x y) <;> rfl

theorem mapRes_ok_mem {ε α β : Type} {f : α → Res ε β} {l : List α} {bs : List β} (h : mapRes f l = .ok bs) : ∀ a ∈ l, ∃ b, f a = .ok b := by
  rw [mapRes_eq_ok] at h
  intro a ha
  induction h with
  | nil => simp at ha
  | cons h _ ih =>
    rcases List.mem_cons.1 ha with h' | h'
    · exact ⟨_, h' ▸ h⟩
    · exact ih h'

/-- A successful delegation only uses values of the parent key. -/
theorem keyDelegation_sub (c : Curve K P Q QP T) {F F' : Node} {m m' : Msp Int} (h : MspFor F m) (h' : MspFor F' m') {tI : List K} {lam : UInt32 → K}
    {r : Nat → K} {dkey : DecryptionKey K QP Q} (hd : keyDelegation (bls c) m' (keyOf c tI m lam) (delOf c tI) r = .ok dkey) :
    ∀ a ∈ F'.leaves, a.toNat < tI.length ∧ a ∈ F.leaves := by
  intro a ha
  unfold keyDelegation at hd
  obtain ⟨u, hu, hd⟩ := Res.bind_eq_ok.1 hd
  obtain ⟨ds, hds, _⟩ := Res.bind_eq_ok.1 hd
  have hmem : a ∈ m'.rowToAttr := h'.perm.mem_iff.2 ha
  obtain ⟨i, hi, hia⟩ := List.getElem_of_mem hmem
  have hi' : i < m'.matrix.length := by rw [← h'.rta]; exact hi
  obtain ⟨x, hx⟩ : ∃ x, delegateRow (bls c) (bls c).fromI32 m' (keyOf c tI m lam) (delOf c tI) u (m'.matrix[i], i) = .ok x := by
    have hz : (m'.matrix[i], i) ∈ m'.matrix.zipIdx := by
      rw [List.mem_zipIdx_iff_getElem?]
      simp [List.getElem?_eq_getElem hi']
    exact mapRes_ok_mem hds _ hz
  rw [delegateRow_ok c _ m' h tI lam u (show m'.rowToAttr[i]? = some a by rw [List.getElem?_eq_getElem hi, hia])] at hx
  split at hx
  · simp at hx
  · split at hx
    · exact ⟨by omega, by assumption⟩
    · simp at hx

/-- A delegation that succeeds under a later policy is the delegation under the policy of the key. -/
theorem delegate_later (c : Curve K P Q QP T) {p q : Policy} {l : List Change} (h : Later p q l) (hw : p.WF) {tI : List K} {y : K} {ap ap' : AccessPolicy}
    {F : Node} {msp : Msp Int} {lam : UInt32 → K} {key key' : DecryptionKey K QP Q} (hk : KeyOk c p tI y ap F msp lam key) (hne : ap' ≠ .all)
    {r : Nat → K} (hd : engineDelegateUserKey (bls c) q (delOf c tI) key ap' r = .ok key') :
    ap'.Valid p ∧ ∀ b, ap'.Grants p b → ¬ Rotated l b := by
  rw [engineDelegate_msp c q _ _ hne] at hd
  rcases policyToMsp_spec h.wf ap' with ⟨hv, m, F', h1, h2, h3⟩ | ⟨_, e, h1⟩
  · rw [h1, Res.ok_bind, hk.key_eq] at hd
    have hsub := keyDelegation_sub c hk.mspFor h2 hd
    have hval : ∀ b v, ap'.Grants q b → q.HasValue b v → p.HasValue b v := by
      intro b v hb hbv
      obtain ⟨b', _, hb'⟩ := (hk.form.leaves v).1 (hsub v ((h3.leaves v).2 ⟨b, hb, hbv⟩)).2
      rw [hbv.inj h.wf (h.mono b' v hb')]; exact hb'
    have hknown : ∀ b, ap'.Grants q b → p.Known b := by
      intro b hb
      obtain ⟨v, _, hbv⟩ := Policy.currentValue_known h.wf (AccessPolicy.Grants.known hb)
      exact (hval b v hb hbv).known hw
    have hself : ∀ (a : Attribute) (ap : AccessPolicy), ap.Mentions a → q.Known a → ap.Grants q a := by
      intro a ap
      induction ap with
      | attr b =>
        rintro rfl hq
        obtain ⟨list, hh, g1, g2⟩ := hq
        obtain ⟨s, t, rfl, hs⟩ := List.eq_append_cons_of_mem g2
        exact ⟨s, t, hh, g1, hs, rfl, Or.inl rfl⟩
      | and x y i1 i2 => exact fun hm hq => hm.imp (i1 · hq) (i2 · hq)
      | or x y i1 i2 => exact fun hm hq => hm.imp (i1 · hq) (i2 · hq)
      | all => exact fun hm => hm.elim
    have hdis : ∀ ap : AccessPolicy, ap.Disjoint q → ap.Disjoint p := by
      intro ap
      induction ap with
      | attr b => exact fun _ => trivial
      | and x y i1 i2 => exact fun hd => ⟨i1 hd.1, i2 hd.2.1, fun b hb => hd.2.2 b ⟨h.grants hb.1, h.grants hb.2⟩⟩
      | or x y i1 i2 => exact fun hd => ⟨i1 hd.1, i2 hd.2.1, fun b hb => hd.2.2 b ⟨h.grants hb.1, h.grants hb.2⟩⟩
      | all => exact fun _ => trivial
    have hvp : ap'.Valid p := by
      cases ap' with
      | all => exact absurd rfl hne
      | attr a => exact ⟨hv.1, fun b hb => hknown b (hself b _ hb (hv.2.1 b hb)), hdis _ hv.2.2⟩
      | and x y => exact ⟨hv.1, fun b hb => hknown b (hself b _ hb (hv.2.1 b hb)), hdis _ hv.2.2⟩
      | or x y => exact ⟨hv.1, fun b hb => hknown b (hself b _ hb (hv.2.1 b hb)), hdis _ hv.2.2⟩
    refine ⟨hvp, fun b hb hr => ?_⟩
    obtain ⟨v, hc, hlt⟩ := h.rotated b hr
    have := hval b v (h.grants hb) (Policy.currentValue_hasValue hc)
    have := (hw.range v ((Policy.mem_allValues hw).2 ⟨b, this⟩)).2
    omega
  · rw [h1] at hd; simp at hd

/-- Delegating a key to a restriction, under an earlier policy. -/
theorem delegate_earlier (c : Curve K P Q QP T) {p q : Policy} {l : List Change} (h : Later q p l) (hw : q.WF) {tI : List K} {y : K}
    {ap ap' : AccessPolicy} {F : Node} {msp : Msp Int} {lam : UInt32 → K} {key : DecryptionKey K QP Q}
    (hk : KeyOk c p tI y ap F msp lam key) (hr : ap.Restricts q ap') (hne : ap' ≠ .all) (hv : ap'.Valid q) (rnd : Nat → K) :
    ∃ F' msp' lam' key', engineDelegateUserKey (bls c) q (delOf c tI) key ap' rnd = .ok key' ∧
      KeyOk c q tI y ap' F' msp' lam' key' := by
  rcases policyToMsp_spec hw ap' with ⟨_, m, F', h1, h2, h3⟩ | ⟨hnv, _⟩
  · obtain ⟨u, hu, hul, hus⟩ := sharingVector_ok h2.nbCol_pos (0 : K) rnd
    have hs := h2.shareOf_shares hul
    rw [hus] at hs
    have hsub : ∀ a ∈ F'.leaves, a ∈ F.leaves := by
      intro v hv
      obtain ⟨b, hb, hbv⟩ := (h3.leaves v).1 hv
      exact (hk.form.leaves v).2 ⟨b, h.grants (AccessPolicy.grants_restrict hr hw hb), h.mono b v hbv⟩
    refine ⟨F', m, fun a => lam a + shareOf m u a, _, ?_, ⟨h2, h3, rfl, ?_, fun a ha => hk.covers a (hsub a ha), h1⟩⟩
    · rw [hk.key_eq, engineDelegate_msp c q _ _ hne, h1, Res.ok_bind]
      exact keyDelegation_ok c hk.mspFor h2 tI lam rnd (fun a ha => (hk.covers a (hsub a ha)).1) hsub hu
    · have h0 : F'.Shares lam y :=
        (h3.shares lam y).2 (AccessPolicy.shares_restrict hr hw (h.shares ((hk.form.shares lam y).1 hk.shares)))
      simpa using shares_add h0 hs
  · exact absurd hv hnv

/-- Every issued key has the expected form. -/
theorem issued_ok (c : Curve K P Q QP T) {p : Policy} {tI : List K} (hnz : ∀ t ∈ tI, t ≠ 0) {y : K}
    {ap : AccessPolicy} {key : DecryptionKey K QP Q} (h : Issued c ⟨⟨tI, y⟩, pubOf c tI y, delOf c tI⟩ p ap key) :
    p.Reachable ∧ ∃ F msp lam, KeyOk c p tI y ap F msp lam key := by
  induction h with
  | generate rnd hp h => exact ⟨hp, userKey_gen c (reachable_wf hp) hnz h⟩
  | @randomise p q ap key key' rnd _ h ih =>
    obtain ⟨hp, F, msp, lam, ih⟩ := ih
    obtain ⟨lam', key', e1, e2⟩ := engineRandomise_ok c (p' := q) ih rnd
    simp only [] at h
    rw [e1] at h
    simp only [Res.ok.injEq] at h
    exact ⟨hp, F, msp, lam', h ▸ e2⟩
  | @delegateLater p q l ap ap' key key' rnd _ he hr hne h ih =>
    obtain ⟨hp, F, msp, lam, ih⟩ := ih
    have hw := reachable_wf hp
    have hl := evolves_later he hw
    simp only [] at h
    obtain ⟨hv, hg⟩ := delegate_later c hl hw ih hne h
    rw [engineDelegate_msp c q _ _ hne, hl.policyToMsp hw hne hv hg, ← engineDelegate_msp c p _ _ hne] at h
    obtain ⟨F', msp', lam', key', e1, e2⟩ := engineDelegate_ok c hw ih hr hne hv rnd
    rw [e1] at h
    simp only [Res.ok.injEq] at h
    exact ⟨hp, F', msp', lam', h ▸ e2⟩
  | @delegateEarlier p q l ap ap' key key' rnd _ hq he hr hne h ih =>
    obtain ⟨hp, F, msp, lam, ih⟩ := ih
    have hw := reachable_wf hq
    simp only [] at h
    obtain ⟨F', msp', lam', key', e1, e2⟩ := delegate_earlier c (evolves_later he hw) hw ih hr hne (engineDelegate_valid c hw hne h) rnd
    rw [e1] at h
    simp only [Res.ok.injEq] at h
    exact ⟨hq, F', msp', lam', h ▸ e2⟩

theorem mapRes_first_err {ε α β : Type} {f : α → Res ε β} {e : ε} {l : List α} (h : ∀ a ∈ l, (∃ b, f a = .ok b) ∨ f a = .err e) (hex : ∃ a ∈ l, f a = .err e) :
    mapRes f l = .err e := by
  induction l with
  | nil => simp at hex
  | cons a l ih =>
    rcases h a (by simp) with ⟨b, hb⟩ | hb
    · obtain ⟨x, hx, hxe⟩ := hex
      rcases List.mem_cons.1 hx with rfl | hx
      · rw [hxe] at hb; simp at hb
      · simp only [mapRes, hb, Res.ok_bind, ih (fun a ha => h a (by simp [ha])) ⟨x, hx, hxe⟩, Res.err_bind]
    · simp only [mapRes, hb, Res.err_bind]

theorem mapRes_first_panic {ε α β : Type} {f : α → Res ε β} {l : List α} (h : ∀ a ∈ l, (∃ b, f a = .ok b) ∨ f a = .panic) (hex : ∃ a ∈ l, f a = .panic) :
    mapRes f l = .panic := by
  induction l with
  | nil => simp at hex
  | cons a l ih =>
    rcases h a (by simp) with ⟨b, hb⟩ | hb
    · obtain ⟨x, hx, hxe⟩ := hex
      rcases List.mem_cons.1 hx with rfl | hx
      · rw [hxe] at hb; simp at hb
      · simp only [mapRes, hb, Res.ok_bind, ih (fun a ha => h a (by simp [ha])) ⟨x, hx, hxe⟩, Res.panic_bind]
    · simp only [mapRes, hb, Res.panic_bind]

/-- How a delegation that does not succeed fails. -/
theorem keyDelegation_fail (c : Curve K P Q QP T) {F F' : Node} {m m' : Msp Int} (h : MspFor F m) (h' : MspFor F' m') {tI : List K} {lam : UInt32 → K} (r : Nat → K) :
    ((∀ a ∈ F'.leaves, a.toNat < tI.length) → (∃ a ∈ F'.leaves, a ∉ F.leaves) →
      keyDelegation (bls c) m' (keyOf c tI m lam) (delOf c tI) r = .err (.internalOperation "new attribute is not allowed")) ∧
    ((∃ a ∈ F'.leaves, tI.length ≤ a.toNat) → (∀ a ∈ F'.leaves, a.toNat < tI.length → a ∈ F.leaves) →
      keyDelegation (bls c) m' (keyOf c tI m lam) (delOf c tI) r = .panic) := by
  obtain ⟨u, hu, _, _⟩ := sharingVector_ok h'.nbCol_pos (0 : K) r
  have hrow : ∀ x ∈ m'.matrix.zipIdx, ∃ a ∈ F'.leaves,
      delegateRow (bls c) (bls c).fromI32 m' (keyOf c tI m lam) (delOf c tI) u x =
      if tI.length ≤ a.toNat then .panic
      else if a ∈ F.leaves then
        .ok (c.prepare (((lam a + prodScal (bls c).fromI32 x.1 u) * (tOf tI a)⁻¹) • c.genQ),
          ((lam a + prodScal (bls c).fromI32 x.1 u) * (tOf tI a)⁻¹) • c.genQ)
      else .err (.internalOperation "new attribute is not allowed") := by
    rintro ⟨row, i⟩ hx
    rw [List.mem_zipIdx_iff_getElem?] at hx
    have hi : i < m'.matrix.length := (List.getElem?_eq_some_iff.1 hx).1
    have hi' : i < m'.rowToAttr.length := by rw [h'.rta]; exact hi
    have ha : m'.rowToAttr[i]? = some m'.rowToAttr[i] := List.getElem?_eq_getElem hi'
    exact ⟨_, h'.attr_mem ha, delegateRow_ok c _ m' h tI lam u ha⟩
  have hat : ∀ a ∈ F'.leaves, ∃ x ∈ m'.matrix.zipIdx,
      delegateRow (bls c) (bls c).fromI32 m' (keyOf c tI m lam) (delOf c tI) u x =
      if tI.length ≤ a.toNat then .panic
      else if a ∈ F.leaves then
        .ok (c.prepare (((lam a + prodScal (bls c).fromI32 x.1 u) * (tOf tI a)⁻¹) • c.genQ),
          ((lam a + prodScal (bls c).fromI32 x.1 u) * (tOf tI a)⁻¹) • c.genQ)
      else .err (.internalOperation "new attribute is not allowed") := by
    intro a ha
    obtain ⟨i, hi, hia⟩ := List.getElem_of_mem (h'.perm.mem_iff.2 ha)
    have hi' : i < m'.matrix.length := by rw [← h'.rta]; exact hi
    refine ⟨(m'.matrix[i], i), ?_, delegateRow_ok c _ m' h tI lam u (by rw [List.getElem?_eq_getElem hi, hia])⟩
    rw [List.mem_zipIdx_iff_getElem?]
    simp [List.getElem?_eq_getElem hi']
  unfold keyDelegation
  rw [hu]
  simp only [Res.ok_bind]
  constructor
  · rintro hr ⟨a, ha, hna⟩
    rw [mapRes_first_err (e := .internalOperation "new attribute is not allowed")]
    · rfl
    · intro x hx
      obtain ⟨b, hb, e⟩ := hrow x hx
      rw [e, if_neg (by have := hr b hb; omega)]
      split
      · exact Or.inl ⟨_, rfl⟩
      · exact Or.inr rfl
    · obtain ⟨x, hx, e⟩ := hat a ha
      exact ⟨x, hx, by rw [e, if_neg (by have := hr a ha; omega), if_neg hna]⟩
  · rintro ⟨a, ha, hna⟩ hr
    rw [mapRes_first_panic]
    · rfl
    · intro x hx
      obtain ⟨b, hb, e⟩ := hrow x hx
      rw [e]
      by_cases hlt : tI.length ≤ b.toNat
      · rw [if_pos hlt]; exact Or.inr rfl
      · rw [if_neg hlt, if_pos (hr b hb (by omega))]; exact Or.inl ⟨_, rfl⟩
    · obtain ⟨x, hx, e⟩ := hat a ha
      exact ⟨x, hx, by rw [e, if_pos hna]⟩

end Abe

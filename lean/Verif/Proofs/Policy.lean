import Verif.Spec.Policy
import Verif.Proofs.Scheme

/-! Well-formedness of policies and meaning of the translated formulas. -/

namespace Abe

set_option linter.unusedSectionVars false

/-! ### Association lists -/

theorem hget_eq_some {κ α : Type} [DecidableEq κ] {m : List (κ × α)} (hn : (m.map Prod.fst).Nodup) {k : κ} {a : α} :
    hget m k = some a ↔ (k, a) ∈ m := by
  induction m with
  | nil => simp [hget]
  | cons p m ih =>
    rw [List.map_cons, List.nodup_cons] at hn
    unfold hget at ih ⊢
    rw [List.find?_cons]
    by_cases h : p.1 = k
    · simp only [h, decide_true, Option.map_some, Option.some.injEq, List.mem_cons]
      constructor
      · rintro rfl; left; rw [← h]
      · rintro (h' | h')
        · rw [← h']
        · exfalso; apply hn.1; rw [h]; exact List.mem_map.2 ⟨_, h', rfl⟩
    · simp only [h, decide_false, List.mem_cons]
      rw [ih hn.2]
      constructor
      · exact Or.inr
      · rintro (h' | h')
        · rw [← h'] at h; simp at h
        · exact h'

theorem hget_mem {κ α : Type} [DecidableEq κ] {m : List (κ × α)} {k : κ} {a : α} (h : hget m k = some a) :
    (k, a) ∈ m := by
  unfold hget at h
  rw [Option.map_eq_some_iff] at h
  obtain ⟨p, h1, rfl⟩ := h
  have h2 := List.find?_some h1
  simp at h2
  rw [← h2]; exact List.mem_of_find?_eq_some h1

theorem hget_eq_none {κ α : Type} [DecidableEq κ] {m : List (κ × α)} {k : κ} :
    hget m k = none ↔ k ∉ m.map Prod.fst := by
  unfold hget
  rw [Option.map_eq_none_iff, List.find?_eq_none]
  simp only [decide_eq_true_eq, List.mem_map, not_exists, not_and]

theorem hinsert_fresh {κ α : Type} [DecidableEq κ] {m : List (κ × α)} {k : κ} {a : α} (h : hget m k = none) :
    hinsert m k a = (k, a) :: m := by
  unfold hinsert
  congr 1
  rw [List.filter_eq_self]
  intro p hp
  rw [hget_eq_none] at h
  simp only [decide_eq_true_eq]
  rintro rfl
  exact h (List.mem_map.2 ⟨p, hp, rfl⟩)

/-! ### Heaps -/

theorem getD_set {α : Type} (l : List α) (i j : Nat) (x d : α) :
    (l.set i x).getD j d = if i = j ∧ j < l.length then x else l.getD j d := by
  simp only [List.getD_eq_getElem?_getD, List.getElem?_set]
  by_cases h : i = j
  · subst h
    by_cases h2 : i < l.length
    · simp [h2]
    · simp [h2]
  · simp [h]

theorem siftUp_perm (l : List UInt32) (pos : Nat) (h : pos < l.length) : (siftUp l pos).Perm l := by
  induction pos using Nat.strong_induction_on generalizing l with
  | _ pos ih =>
    unfold siftUp
    split
    · exact List.Perm.refl _
    · simp only []
      split
      · exact List.Perm.refl _
      · rename_i h0 _
        refine (ih _ (by omega) _ (by simp; omega)).trans ?_
        have hp : (pos - 1) / 2 < l.length := by omega
        rw [getD_lt hp, getD_lt h]
        exact List.set_set_perm h hp

theorem heapPush_perm (l : List UInt32) (x : UInt32) : (heapPush l x).Perm (x :: l) := by
  refine (siftUp_perm _ _ (by simp)).trans ?_
  exact List.perm_append_comm

/-- Sift-up brings an element larger than all others to the top. -/
theorem siftUp_top (l : List UInt32) (pos : Nat) (h : pos < l.length)
    (hmax : ∀ j, j ≠ pos → j < l.length → l.getD j 0 < l.getD pos 0) :
    (siftUp l pos).head? = some (l.getD pos 0) := by
  induction pos using Nat.strong_induction_on generalizing l with
  | _ pos ih =>
    unfold siftUp
    split
    · rename_i h0
      subst h0
      cases l with
      | nil => simp at h
      | cons a l => simp
    · rename_i h0
      simp only []
      have hp : (pos - 1) / 2 < l.length := by omega
      rw [if_neg (by
        have := hmax ((pos - 1) / 2) (by omega) hp
        exact UInt32.not_le.2 this)]
      rw [ih ((pos - 1) / 2) (by omega) _ (by simpa using hp)]
      · rw [getD_set, if_pos (by simpa using hp)]
      · intro j hj hj'
        simp at hj'
        rw [getD_set _ _ j, if_neg (by intro hh; exact hj hh.1.symm), getD_set _ _ ((pos - 1) / 2),
          if_pos (by simpa using hp), getD_set _ _ j]
        split
        · exact hmax _ (by omega) hp
        · rename_i hne
          exact hmax j (by rintro rfl; exact hne ⟨rfl, hj'⟩) hj'

theorem heapPush_head (l : List UInt32) (x : UInt32) (h : ∀ w ∈ l, w < x) : (heapPush l x).head? = some x := by
  unfold heapPush
  rw [siftUp_top _ _ (by simp)]
  · simp
  · intro j hj hj'
    simp at hj'
    have hjl : j < l.length := by omega
    rw [getD_lt (by simp; omega), List.getElem_append_left hjl]
    simp
    exact h _ (List.getElem_mem hjl)

/-! ### Values -/

theorem Policy.mem_allValues {p : Policy} (hw : p.WF) {v : UInt32} : v ∈ p.allValues ↔ ∃ a, p.HasValue a v := by
  unfold Policy.allValues Policy.HasValue
  simp only [List.mem_flatten, List.mem_map]
  constructor
  · rintro ⟨_, ⟨q, hq, rfl⟩, hv⟩
    exact ⟨q.1, q.2, (hget_eq_some hw.keysNodup).2 hq, hv⟩
  · rintro ⟨a, heap, h1, h2⟩
    exact ⟨heap, ⟨(a, heap), hget_mem h1, rfl⟩, h2⟩

theorem Policy.HasValue.known {p : Policy} (hw : p.WF) {a : Attribute} {v : UInt32} (h : p.HasValue a v) :
    p.Known a := by
  obtain ⟨heap, h1, _⟩ := h
  exact (hw.known a).2 ⟨heap, h1⟩

/-- A value belongs to one attribute only. -/
theorem Policy.HasValue.inj {p : Policy} (hw : p.WF) {a b : Attribute} {v : UInt32} (ha : p.HasValue a v)
    (hb : p.HasValue b v) : a = b := by
  obtain ⟨h1, e1, m1⟩ := ha
  obtain ⟨h2, e2, m2⟩ := hb
  have g1 := hget_mem e1
  have g2 := hget_mem e2
  have hn := hw.valuesNodup
  unfold Policy.allValues at hn
  rw [List.nodup_flatten, List.pairwise_map] at hn
  by_contra hne
  have : Std.Symm fun (a b : Attribute × List UInt32) => a.2.Disjoint b.2 :=
    ⟨fun _ _ h => List.Disjoint.symm h⟩
  exact hn.2.forall g1 g2 (by intro h; exact hne (congrArg Prod.fst h)) m1 m2

theorem Policy.WF.heap_nodup {p : Policy} (hw : p.WF) {a : Attribute} {heap : List UInt32}
    (h : hget p.attributeToInt a = some heap) : heap.Nodup := by
  have hn := hw.valuesNodup
  unfold Policy.allValues at hn
  rw [List.nodup_flatten] at hn
  exact hn.1 heap (List.mem_map.2 ⟨_, hget_mem h, rfl⟩)

theorem Policy.currentValue_iff {p : Policy} {a : Attribute} {v : UInt32} :
    p.currentValue a = some v ↔ ∃ heap, hget p.attributeToInt a = some heap ∧ heap.head? = some v := by
  unfold Policy.currentValue
  rw [Option.bind_eq_some_iff]

theorem Policy.currentValue_known {p : Policy} (hw : p.WF) {a : Attribute} (h : p.Known a) :
    ∃ v, p.currentValue a = some v ∧ p.HasValue a v := by
  obtain ⟨heap, hh⟩ := (hw.known a).1 h
  obtain ⟨v, hv, _⟩ := hw.top a heap hh
  exact ⟨v, Policy.currentValue_iff.2 ⟨heap, hh, hv⟩, heap, hh, List.mem_of_mem_head? hv⟩

theorem Policy.currentValue_hasValue {p : Policy} {a : Attribute} {v : UInt32} (h : p.currentValue a = some v) :
    p.HasValue a v := by
  obtain ⟨heap, h1, h2⟩ := Policy.currentValue_iff.1 h
  exact ⟨heap, h1, List.mem_of_mem_head? h2⟩

theorem top_iff {p : Policy} {a : Attribute} {v : UInt32} : p.Top a v ↔ p.currentValue a = some v := by
  unfold Policy.Top Policy.currentValue
  cases hget p.attributeToInt a with
  | none => simp
  | some l => cases l <;> simp

theorem tops_iff {p : Policy} {atts : List Attribute} {vs : List UInt32} : List.Forall₂ p.Top atts vs ↔ atts.map p.currentValue = vs.map some := by
  induction atts generalizing vs with
  | nil => cases vs <;> simp
  | cons a atts ih => cases vs <;> simp [ih, top_iff]

theorem attributesValues_cases {p : Policy} (hw : p.WF) (atts : List Attribute) :
    (∀ a ∈ atts, p.Known a) ∧ (∃ vs, p.attributesValues atts = .ok vs ∧ vs.length = atts.length ∧
        (∀ v, v ∈ vs ↔ ∃ a ∈ atts, p.currentValue a = some v) ∧ atts.map p.currentValue = vs.map some) ∨
    (∃ a ∈ atts, ¬ p.Known a) ∧ p.attributesValues atts = .err .policyError := by
  unfold Policy.attributesValues
  induction atts with
  | nil => left; exact ⟨by simp, [], rfl, rfl, by simp, rfl⟩
  | cons a atts ih =>
    rw [mapRes_cons]
    by_cases hk : p.Known a
    · obtain ⟨v, hv, _⟩ := Policy.currentValue_known hw hk
      rw [hv]
      rw [show Res.ofOption FormatErr.policyError (some v) = .ok v from rfl, Res.ok_bind]
      rcases ih with ⟨h1, vs, h2, h3, h4, h5⟩ | ⟨⟨b, hb, hb'⟩, h2⟩
      · left
        refine ⟨?_, v :: vs, ?_, by simp [h3], ?_, ?_⟩
        · intro b hb
          rcases List.mem_cons.1 hb with rfl | hb
          · exact hk
          · exact h1 b hb
        · rw [h2]; rfl
        · intro w
          simp only [List.mem_cons, h4, exists_eq_or_imp, hv, Option.some.injEq]
          constructor
          · rintro (rfl | h); exacts [Or.inl rfl, Or.inr h]
          · rintro (rfl | h); exacts [Or.inl rfl, Or.inr h]
        · simp [hv, h5]
      · right
        exact ⟨⟨b, by simp [hb], hb'⟩, by rw [h2]; rfl⟩
    · right
      refine ⟨⟨a, by simp, hk⟩, ?_⟩
      have : p.currentValue a = none := by
        cases h : p.currentValue a with
        | none => rfl
        | some v => exact absurd ((Policy.currentValue_hasValue h).known hw) hk
      rw [this]; rfl

/-! ### Formulas of access policies -/

theorem orAll_foldl (vs : List UInt32) (n : Node) :
    (vs.foldl (fun n v => Node.or n (.leaf v)) n).leaves = n.leaves ++ vs ∧
    (∀ γ, (vs.foldl (fun n v => Node.or n (.leaf v)) n).Sat γ ↔ n.Sat γ ∨ ∃ v ∈ vs, γ v) ∧
    ∀ {K : Type} [Field K] (lam : UInt32 → K) (y : K),
      (vs.foldl (fun n v => Node.or n (.leaf v)) n).Shares lam y ↔ n.Shares lam y ∧ ∀ v ∈ vs, lam v = y := by
  induction vs generalizing n with
  | nil => simp
  | cons v vs ih =>
    obtain ⟨h1, h2, h3⟩ := ih (.or n (.leaf v))
    refine ⟨by rw [List.foldl_cons, h1]; simp [Node.leaves], ?_, ?_⟩
    · intro γ
      rw [List.foldl_cons, h2]
      simp only [Node.Sat, List.mem_cons, exists_eq_or_imp]
      tauto
    · intro K _ lam y
      rw [List.foldl_cons, h3]
      simp only [Node.Shares, List.forall_mem_cons, and_assoc]

/-- Disjunction of values. -/
structure OrOf (vs : List UInt32) (n : Node) : Prop where
  leaves : n.leaves = vs
  sat : ∀ γ, n.Sat γ ↔ ∃ v ∈ vs, γ v
  shares : ∀ {K : Type} [Field K] (lam : UInt32 → K) (y : K), n.Shares lam y ↔ ∀ v ∈ vs, lam v = y

theorem orAll_spec {vs : List UInt32} {n : Node} (h : orAll vs = some n) : OrOf vs n := by
  cases vs with
  | nil => simp [orAll] at h
  | cons v vs =>
    simp only [orAll, Option.some.injEq] at h
    subst h
    obtain ⟨h1, h2, h3⟩ := orAll_foldl vs (.leaf v)
    refine ⟨by rw [h1]; rfl, ?_, ?_⟩
    · intro γ
      rw [h2]
      simp [Node.Sat]
    · intro K _ lam y
      rw [h3]
      simp only [Node.Shares, List.forall_mem_cons]

theorem heapNode_ok {p : Policy} (hw : p.WF) {of a : Attribute} {heap : List UInt32}
    (h : hget p.attributeToInt a = some heap) :
    ∃ n, heapNode p of a = .ok n ∧ OrOf heap n := by
  obtain ⟨v, hv, _⟩ := hw.top a heap h
  unfold heapNode
  rw [h]
  cases hh : orAll heap with
  | none => cases heap <;> simp [orAll] at hh hv
  | some n => exact ⟨n, by simp only [hh, Res.ofOption], orAll_spec hh⟩

/-- Secret sharing along an access policy: `lam` assigns shares of `y` to the attribute values. -/
def AccessPolicy.Shares {K : Type} [Field K] (p : Policy) (lam : UInt32 → K) : AccessPolicy → K → Prop
  | .attr a, y => ∀ b, p.Covers a b → ∀ v, p.HasValue b v → lam v = y
  | .and l r, y => ∃ y1 y2, y1 + y2 = y ∧ l.Shares p lam y1 ∧ r.Shares p lam y2
  | .or l r, y => l.Shares p lam y ∧ r.Shares p lam y
  | .all, y => ∀ b v, p.HasValue b v → lam v = y

/-- The formula `n` means the access policy `ap`. -/
structure FormOf (p : Policy) (ap : AccessPolicy) (n : Node) : Prop where
  leaves : ∀ v, v ∈ n.leaves ↔ ∃ b, ap.Grants p b ∧ p.HasValue b v
  sat : ∀ γ, n.Sat γ ↔ ap.Sat p fun b => ∃ v, p.HasValue b v ∧ γ v
  nodup : n.leaves.Nodup ↔ ap.Disjoint p
  shares : ∀ {K : Type} [Field K] (lam : UInt32 → K) (y : K), n.Shares lam y ↔ ap.Shares p lam y

theorem lowerFold_ok {p : Policy} (hw : p.WF) (of : Attribute) (ax : String) : ∀ (names : List String) (val : Node),
    (∀ x ∈ names, ∃ heap, hget p.attributeToInt ⟨ax, x⟩ = some heap) →
    ∃ n, foldRes (fun val elem => (do
        let n ← heapNode p of ⟨ax, elem⟩
        .ok (.or val n) : Out Node)) val names = .ok n ∧
      n.leaves = val.leaves ++ (names.map fun x => (hget p.attributeToInt ⟨ax, x⟩).getD []).flatten ∧
      (∀ γ, n.Sat γ ↔ val.Sat γ ∨ ∃ x ∈ names, ∃ v, p.HasValue ⟨ax, x⟩ v ∧ γ v) ∧
      ∀ {K : Type} [Field K] (lam : UInt32 → K) (y : K),
        n.Shares lam y ↔ val.Shares lam y ∧ ∀ x ∈ names, ∀ v, p.HasValue ⟨ax, x⟩ v → lam v = y
  | [], val, _ => ⟨val, rfl, by simp, by simp, by simp⟩
  | x :: names, val, h => by
    obtain ⟨heap, hh⟩ := h x (by simp)
    obtain ⟨nx, e1, e2, e3, e4⟩ := heapNode_ok (of := of) hw hh
    obtain ⟨n, g1, g2, g3, g4⟩ := lowerFold_ok hw of ax names (.or val nx) (fun y hy => h y (by simp [hy]))
    refine ⟨n, ?_, ?_, ?_, ?_⟩
    · rw [foldRes_cons, e1]; exact g1
    · rw [g2]; simp [Node.leaves, e2, hh]
    · intro γ
      rw [g3]
      simp only [Node.Sat, e3, List.mem_cons, exists_eq_or_imp]
      have : (∃ v, p.HasValue ⟨ax, x⟩ v ∧ γ v) ↔ ∃ v ∈ heap, γ v := by
        unfold Policy.HasValue
        rw [hh]; simp
      rw [this, or_assoc]
    · intro K _ lam y
      rw [g4]
      simp only [Node.Shares, e4, List.forall_mem_cons, and_assoc]
      have : (∀ v, p.HasValue ⟨ax, x⟩ v → lam v = y) ↔ ∀ v ∈ heap, lam v = y := by
        unfold Policy.HasValue
        rw [hh]; simp
      rw [this]

theorem Policy.known_iff {p : Policy} {a : Attribute} : p.Known a ↔ ∃ b, p.Covers a b := by
  constructor
  · rintro ⟨list, h, h1, h2⟩
    obtain ⟨s, t, rfl, hs⟩ := List.eq_append_cons_of_mem h2
    exact ⟨a, s, t, h, h1, hs, rfl, Or.inl rfl⟩
  · rintro ⟨_, s, t, h, h1, _⟩
    exact ⟨_, h, h1, by simp⟩

theorem Policy.Covers.known {p : Policy} {a b : Attribute} (h : p.Covers a b) : p.Known a ∧ p.Known b := by
  obtain ⟨s, t, hh, h1, h2, h3, h4⟩ := h
  refine ⟨⟨_, hh, h1, by simp⟩, ⟨_, hh, h3 ▸ h1, ?_⟩⟩
  rcases h4 with h4 | ⟨_, h4⟩
  · simp [h4]
  · simp [h4]

theorem policyToNode_ok {p : Policy} (hw : p.WF) {a : Attribute} (hk : p.Known a) :
    ∃ n, policyToNode p a = .ok n ∧ FormOf p (.attr a) n := by
  obtain ⟨list, hier, h1, h2⟩ := hk
  obtain ⟨s, t, rfl, hs⟩ := List.eq_append_cons_of_mem h2
  have hnd := hw.namesNodup _ _ _ h1
  have hheap : ∀ x ∈ s ++ a.name :: t, ∃ heap, hget p.attributeToInt ⟨a.axis, x⟩ = some heap := by
    intro x hx
    exact (hw.known ⟨a.axis, x⟩).1 ⟨_, _, h1, hx⟩
  obtain ⟨heap, hh⟩ := hheap a.name (by simp)
  rw [show (⟨a.axis, a.name⟩ : Attribute) = a from rfl] at hh
  obtain ⟨na, e1, e2, e3, e4⟩ := heapNode_ok (of := a) hw hh
  have hidx : (s ++ a.name :: t).findIdx? (· == a.name) = some s.length := by
    rw [List.findIdx?_append]
    have : s.findIdx? (· == a.name) = none := by
      rw [List.findIdx?_eq_none_iff]
      intro x hx
      simp only [beq_eq_false_iff_ne]
      rintro rfl; exact hs hx
    rw [this]
    simp [List.findIdx?_cons]
  have hcov : ∀ b, p.Covers a b ↔ b.axis = a.axis ∧ (b.name = a.name ∨ hier = true ∧ b.name ∈ s) := by
    intro b
    constructor
    · rintro ⟨s', t', h', g1, g2, g3, g4⟩
      rw [h1] at g1
      simp only [Option.some.injEq, Prod.mk.injEq] at g1
      obtain ⟨g1, rfl⟩ := g1
      have : s = s' := by
        have hl : s.length = s'.length := by
          have e := hidx
          rw [g1] at e
          have hidx' : (s' ++ a.name :: t').findIdx? (· == a.name) = some s'.length := by
            rw [List.findIdx?_append]
            have : s'.findIdx? (· == a.name) = none := by
              rw [List.findIdx?_eq_none_iff]
              intro x hx
              simp only [beq_eq_false_iff_ne]
              rintro rfl; exact g2 hx
            rw [this]
            simp [List.findIdx?_cons]
          rw [hidx'] at e
          simpa using e.symm
        exact (List.append_inj g1 hl).1
      subst this
      exact ⟨g3, g4⟩
    · rintro ⟨g1, g2⟩
      exact ⟨s, t, hier, h1, hs, g1, g2⟩
  have hhv : ∀ v, p.HasValue a v ↔ v ∈ heap := by
    intro v; unfold Policy.HasValue; rw [hh]; simp
  unfold policyToNode
  rw [h1]
  simp only []
  rw [if_pos (by simp), hidx]
  simp only [Res.ofOption, Res.ok_bind]
  rw [e1]
  simp only [Res.ok_bind]
  cases hier with
  | false =>
    simp only [Bool.false_eq_true, if_false]
    have hcov' : ∀ b, p.Covers a b ↔ b = a := by
      intro b; rw [hcov]
      constructor
      · rintro ⟨g1, g2 | ⟨g2, _⟩⟩
        · cases a; cases b; simp_all
        · simp at g2
      · rintro rfl; simp
    refine ⟨na, rfl, ?_, ?_, ?_, ?_⟩
    · intro v
      rw [e2, ← hhv]
      simp only [AccessPolicy.Grants, hcov']
      simp
    · intro γ
      rw [e3]
      simp only [AccessPolicy.Sat, hcov']
      simp [hhv]
    · rw [e2]
      simp [AccessPolicy.Disjoint, hw.heap_nodup hh]
    · intro K _ lam y
      rw [e4]
      simp only [AccessPolicy.Shares, hcov']
      simp [hhv]
  | true =>
    simp only [if_true]
    rw [List.take_append_of_le_length (Nat.le_refl _), List.take_length]
    obtain ⟨n, g1, g2, g3, g4⟩ := lowerFold_ok hw a a.axis s na (fun x hx => hheap x (by simp [hx]))
    have hcov' : ∀ b, p.Covers a b ↔ b = a ∨ ∃ x ∈ s, b = ⟨a.axis, x⟩ := by
      intro b; rw [hcov]
      constructor
      · rintro ⟨q1, q2 | ⟨_, q2⟩⟩
        · left; cases a; cases b; simp_all
        · right; refine ⟨b.name, q2, ?_⟩; cases b; simp_all
      · rintro (rfl | ⟨x, hx, rfl⟩)
        · simp
        · simp [hx]
    refine ⟨n, g1, ?_, ?_, ?_, ?_⟩
    · intro v
      rw [g2, List.mem_append, e2, ← hhv]
      simp only [AccessPolicy.Grants, hcov', List.mem_flatten, List.mem_map]
      constructor
      · rintro (h | ⟨_, ⟨x, hx, rfl⟩, hv⟩)
        · exact ⟨a, Or.inl rfl, h⟩
        · obtain ⟨hp, hhp⟩ := hheap x (by simp [hx])
          rw [hhp] at hv
          exact ⟨⟨a.axis, x⟩, Or.inr ⟨x, hx, rfl⟩, hp, hhp, by simpa using hv⟩
      · rintro ⟨b, rfl | ⟨x, hx, rfl⟩, hv⟩
        · exact Or.inl hv
        · right
          obtain ⟨hp, hhp, hvp⟩ := hv
          exact ⟨hp, ⟨x, hx, by rw [hhp]; rfl⟩, hvp⟩
    · intro γ
      rw [g3, e3]
      simp only [AccessPolicy.Sat, hcov']
      constructor
      · rintro (⟨v, hv, hg⟩ | ⟨x, hx, h⟩)
        · exact ⟨a, Or.inl rfl, v, (hhv v).2 hv, hg⟩
        · exact ⟨_, Or.inr ⟨x, hx, rfl⟩, h⟩
      · rintro ⟨b, rfl | ⟨x, hx, rfl⟩, h⟩
        · left; obtain ⟨v, hv, hg⟩ := h; exact ⟨v, (hhv v).1 hv, hg⟩
        · right; exact ⟨x, hx, h⟩
    · rw [g2, e2]
      simp only [AccessPolicy.Disjoint, iff_true]
      have key : ∀ x ∈ s, ∀ v, v ∈ (hget p.attributeToInt ⟨a.axis, x⟩).getD [] → p.HasValue ⟨a.axis, x⟩ v := by
        intro x hx v hv
        obtain ⟨hp, hhp⟩ := hheap x (by simp [hx])
        rw [hhp] at hv
        exact ⟨hp, hhp, by simpa using hv⟩
      rw [List.nodup_append]
      refine ⟨hw.heap_nodup hh, ?_, ?_⟩
      · rw [List.nodup_flatten]
        refine ⟨?_, ?_⟩
        · intro l hl
          obtain ⟨x, hx, rfl⟩ := List.mem_map.1 hl
          obtain ⟨hp, hhp⟩ := hheap x (by simp [hx])
          rw [hhp]; exact hw.heap_nodup hhp
        · rw [List.pairwise_map]
          have hsn : s.Nodup := (List.nodup_append.1 hnd).1
          refine List.Pairwise.imp_of_mem ?_ hsn
          intro x y hx hy hxy v hv1 hv2
          have := (key x hx v hv1).inj hw (key y hy v hv2)
          simp at this; exact hxy this
      · intro v hv w hw' hvw
        subst hvw
        simp only [List.mem_flatten, List.mem_map] at hw'
        obtain ⟨_, ⟨x, hx, rfl⟩, hv'⟩ := hw'
        have := ((hhv v).2 hv).inj hw (key x hx v hv')
        apply hs
        rw [this]
        exact hx
    · intro K _ lam y
      rw [g4, e4]
      simp only [AccessPolicy.Shares, hcov']
      constructor
      · rintro ⟨q1, q2⟩ b (rfl | ⟨x, hx, rfl⟩) v hv
        · exact q1 v ((hhv v).1 hv)
        · exact q2 x hx v hv
      · intro h
        exact ⟨fun v hv => h a (Or.inl rfl) v ((hhv v).2 hv), fun x hx => h _ (Or.inr ⟨x, hx, rfl⟩)⟩

theorem policyToNode_err {p : Policy} {a : Attribute} (hk : ¬ p.Known a) : ∃ e, policyToNode p a = .err e := by
  unfold policyToNode
  cases h : hget p.axes a.axis with
  | none => exact ⟨_, rfl⟩
  | some q =>
    obtain ⟨list, hier⟩ := q
    simp only []
    by_cases hc : list.contains a.name = true
    · exfalso; apply hk; exact ⟨list, hier, h, by simpa using hc⟩
    · rw [if_neg hc]; exact ⟨_, rfl⟩

theorem policyToFormula_spec {p : Policy} (hw : p.WF) : ∀ ap : AccessPolicy,
    (ap.NoAll ∧ (∀ a, ap.Mentions a → p.Known a) ∧ ∃ n, policyToFormula p ap = .ok n ∧ FormOf p ap n) ∨
    (¬ (ap.NoAll ∧ ∀ a, ap.Mentions a → p.Known a) ∧ ∃ e, policyToFormula p ap = .err e)
  | .attr a => by
    by_cases hk : p.Known a
    · left; exact ⟨trivial, fun b hb => by rw [show b = a from hb]; exact hk, policyToNode_ok hw hk⟩
    · right; exact ⟨fun h => hk (h.2 a rfl), policyToNode_err hk⟩
  | .all => by right; exact ⟨fun h => h.1, _, rfl⟩
  | .and l r => by
    rcases policyToFormula_spec hw l with ⟨l1, l2, nl, l3, l4⟩ | ⟨l1, e, l2⟩
    · rcases policyToFormula_spec hw r with ⟨r1, r2, nr, r3, r4⟩ | ⟨r1, e, r2⟩
      · left
        refine ⟨⟨l1, r1⟩, fun a ha => ha.elim (l2 a) (r2 a), .and nl nr, ?_, ?_, ?_, ?_, ?_⟩
        · simp only [policyToFormula]; rw [l3, r3]; rfl
        · intro v
          simp only [Node.leaves, List.mem_append, l4.leaves, r4.leaves, AccessPolicy.Grants]
          constructor
          · rintro (⟨b, h1, h2⟩ | ⟨b, h1, h2⟩)
            exacts [⟨b, Or.inl h1, h2⟩, ⟨b, Or.inr h1, h2⟩]
          · rintro ⟨b, h1 | h1, h2⟩
            exacts [Or.inl ⟨b, h1, h2⟩, Or.inr ⟨b, h1, h2⟩]
        · intro γ; simp only [Node.Sat, l4.sat, r4.sat, AccessPolicy.Sat]
        · simp only [Node.leaves, List.nodup_append, l4.nodup, r4.nodup, AccessPolicy.Disjoint]
          refine and_congr_right fun _ => and_congr_right fun _ => ?_
          constructor
          · intro hd b hb
            obtain ⟨hb1, hb2⟩ := hb
            have hkb : p.Known b := AccessPolicy.Grants.known hb1
            obtain ⟨v, _, hv⟩ := Policy.currentValue_known hw hkb
            exact hd v ((l4.leaves v).2 ⟨b, hb1, hv⟩) v ((r4.leaves v).2 ⟨b, hb2, hv⟩) rfl
          · intro hd v hv w hw' hvw
            subst hvw
            obtain ⟨b, hb1, hb2⟩ := (l4.leaves v).1 hv
            obtain ⟨b', hb1', hb2'⟩ := (r4.leaves v).1 hw'
            have := hb2.inj hw hb2'
            subst this
            exact hd b ⟨hb1, hb1'⟩
        · intro K _ lam y
          simp only [Node.Shares, l4.shares, r4.shares, AccessPolicy.Shares]
      · right
        refine ⟨fun h => r1 ⟨h.1.2, fun a ha => h.2 a (Or.inr ha)⟩, e, ?_⟩
        simp only [policyToFormula]; rw [l3, r2]; rfl
    · right
      refine ⟨fun h => l1 ⟨h.1.1, fun a ha => h.2 a (Or.inl ha)⟩, e, ?_⟩
      simp only [policyToFormula]; rw [l2]; rfl
  | .or l r => by
    rcases policyToFormula_spec hw l with ⟨l1, l2, nl, l3, l4⟩ | ⟨l1, e, l2⟩
    · rcases policyToFormula_spec hw r with ⟨r1, r2, nr, r3, r4⟩ | ⟨r1, e, r2⟩
      · left
        refine ⟨⟨l1, r1⟩, fun a ha => ha.elim (l2 a) (r2 a), .or nl nr, ?_, ?_, ?_, ?_, ?_⟩
        · simp only [policyToFormula]; rw [l3, r3]; rfl
        · intro v
          simp only [Node.leaves, List.mem_append, l4.leaves, r4.leaves, AccessPolicy.Grants]
          constructor
          · rintro (⟨b, h1, h2⟩ | ⟨b, h1, h2⟩)
            exacts [⟨b, Or.inl h1, h2⟩, ⟨b, Or.inr h1, h2⟩]
          · rintro ⟨b, h1 | h1, h2⟩
            exacts [Or.inl ⟨b, h1, h2⟩, Or.inr ⟨b, h1, h2⟩]
        · intro γ; simp only [Node.Sat, l4.sat, r4.sat, AccessPolicy.Sat]
        · simp only [Node.leaves, List.nodup_append, l4.nodup, r4.nodup, AccessPolicy.Disjoint]
          refine and_congr_right fun _ => and_congr_right fun _ => ?_
          constructor
          · intro hd b hb
            obtain ⟨hb1, hb2⟩ := hb
            have hkb : p.Known b := AccessPolicy.Grants.known hb1
            obtain ⟨v, _, hv⟩ := Policy.currentValue_known hw hkb
            exact hd v ((l4.leaves v).2 ⟨b, hb1, hv⟩) v ((r4.leaves v).2 ⟨b, hb2, hv⟩) rfl
          · intro hd v hv w hw' hvw
            subst hvw
            obtain ⟨b, hb1, hb2⟩ := (l4.leaves v).1 hv
            obtain ⟨b', hb1', hb2'⟩ := (r4.leaves v).1 hw'
            have := hb2.inj hw hb2'
            subst this
            exact hd b ⟨hb1, hb1'⟩
        · intro K _ lam y
          simp only [Node.Shares, l4.shares, r4.shares, AccessPolicy.Shares]
      · right
        refine ⟨fun h => r1 ⟨h.1.2, fun a ha => h.2 a (Or.inr ha)⟩, e, ?_⟩
        simp only [policyToFormula]; rw [l3, r2]; rfl
    · right
      refine ⟨fun h => l1 ⟨h.1.1, fun a ha => h.2 a (Or.inl ha)⟩, e, ?_⟩
      simp only [policyToFormula]; rw [l2]; rfl
where
  AccessPolicy.Grants.known {p : Policy} {b : Attribute} : ∀ {ap : AccessPolicy}, ap.Grants p b → p.Known b
    | .attr _, h => h.known.2
    | .and _ _, h => h.elim AccessPolicy.Grants.known AccessPolicy.Grants.known
    | .or _ _, h => h.elim AccessPolicy.Grants.known AccessPolicy.Grants.known
    | .all, h => h

/-- A well-formed policy compiles exactly the valid access policies, and never panics. -/
theorem policyToMsp_spec {p : Policy} (hw : p.WF) (ap : AccessPolicy) :
    (ap.Valid p ∧ ∃ m n, policyToMsp p ap = .ok m ∧ MspFor n m ∧ FormOf p ap n) ∨
    (¬ ap.Valid p ∧ ∃ e, policyToMsp p ap = .err e) := by
  have main : ∀ ap : AccessPolicy, ap ≠ .all →
      (ap.NoAll ∧ (∀ a, ap.Mentions a → p.Known a) ∧ ap.Disjoint p ∧
        ∃ m n, (do let n ← policyToFormula p ap; n.toMsp : Out (Msp Int)) = .ok m ∧ MspFor n m ∧ FormOf p ap n) ∨
      (¬ (ap.NoAll ∧ (∀ a, ap.Mentions a → p.Known a) ∧ ap.Disjoint p) ∧
        ∃ e, (do let n ← policyToFormula p ap; n.toMsp : Out (Msp Int)) = .err e) := by
    intro ap _
    rcases policyToFormula_spec hw ap with ⟨h1, h2, n, h3, h4⟩ | ⟨h1, e, h2⟩
    · rw [h3]
      rcases toMsp_spec n with ⟨g1, m, g2, g3⟩ | ⟨g1, g2⟩
      · left; exact ⟨h1, h2, h4.nodup.1 g1, m, n, g2, g3, h4⟩
      · right; exact ⟨fun h => g1 (h4.nodup.2 h.2.2), _, g2⟩
    · right; exact ⟨fun h => h1 ⟨h.1, h.2.1⟩, e, by rw [h2]; rfl⟩
  cases ap with
  | all =>
    unfold policyToMsp
    simp only [AccessPolicy.Valid]
    change (_ ∧ ∃ m n, (do let n ← Res.ofOption _ (orAll p.allValues); n.toMsp : Out (Msp Int)) = _ ∧ _) ∨
      (_ ∧ ∃ e, (do let n ← Res.ofOption _ (orAll p.allValues); n.toMsp : Out (Msp Int)) = _)
    cases ho : orAll p.allValues with
    | none =>
      right
      refine ⟨?_, _, rfl⟩
      rintro ⟨b, hb⟩
      obtain ⟨v, _, hv⟩ := Policy.currentValue_known hw hb
      have := (Policy.mem_allValues hw).2 ⟨b, hv⟩
      cases h : p.allValues with
      | nil => rw [h] at this; simp at this
      | cons a l => rw [h] at ho; simp [orAll] at ho
    | some n =>
      left
      obtain ⟨h1, h2, h2'⟩ := orAll_spec ho
      have hnd : n.leaves.Nodup := by rw [h1]; exact hw.valuesNodup
      rcases toMsp_spec n with ⟨_, m, g2, g3⟩ | ⟨g1, _⟩
      · refine ⟨?_, m, n, g2, g3, ?_, ?_, ?_, ?_⟩
        · cases h : p.allValues with
          | nil => rw [h] at ho; simp [orAll] at ho
          | cons a l =>
            obtain ⟨b, hb⟩ := (Policy.mem_allValues hw (v := a)).1 (by rw [h]; simp)
            exact ⟨b, hb.known hw⟩
        · intro v
          rw [h1, Policy.mem_allValues hw]
          simp only [AccessPolicy.Grants]
          constructor
          · rintro ⟨b, hb⟩; exact ⟨b, hb.known hw, hb⟩
          · rintro ⟨b, _, hb⟩; exact ⟨b, hb⟩
        · intro γ
          rw [h2]
          simp only [AccessPolicy.Sat]
          constructor
          · rintro ⟨v, hv, hg⟩
            obtain ⟨b, hb⟩ := (Policy.mem_allValues hw).1 hv
            exact ⟨b, hb.known hw, v, hb, hg⟩
          · rintro ⟨b, _, v, hv, hg⟩
            exact ⟨v, (Policy.mem_allValues hw).2 ⟨b, hv⟩, hg⟩
        · simp [AccessPolicy.Disjoint, hnd]
        · intro K _ lam y
          rw [h2']
          simp only [AccessPolicy.Shares]
          constructor
          · intro h b v hb; exact h v ((Policy.mem_allValues hw).2 ⟨b, hb⟩)
          · intro h v hv
            obtain ⟨b, hb⟩ := (Policy.mem_allValues hw).1 hv
            exact h b v hb
      · exact absurd hnd g1
  | attr a =>
    rcases main (.attr a) (by simp) with ⟨h1, h2, h3, h4⟩ | h
    · left; exact ⟨⟨h1, h2, h3⟩, h4⟩
    · right; exact h
  | and l r =>
    rcases main (.and l r) (by simp) with ⟨h1, h2, h3, h4⟩ | h
    · left; exact ⟨⟨h1, h2, h3⟩, h4⟩
    · right; exact h
  | or l r =>
    rcases main (.or l r) (by simp) with ⟨h1, h2, h3, h4⟩ | h
    · left; exact ⟨⟨h1, h2, h3⟩, h4⟩
    · right; exact h

end Abe

import Verif.Spec.Formula
import Verif.Model.Scheme
import Verif.Proofs.Basic
import Mathlib.Tactic.Ring
import Mathlib.Tactic.LinearCombination
import Mathlib.Data.List.Perm.Basic
import Mathlib.Data.Int.Cast.Lemmas

/-! Correctness of the compilation of formulas to span programs. -/

namespace Abe

set_option linter.unusedSectionVars false

variable {K : Type} [Field K]

/-! ### Facts on the specification -/

/-- A satisfying set determines the secret. -/
theorem shares_sat {γ : UInt32 → Prop} {lam : UInt32 → K} (hz : ∀ a, γ a → lam a = 0) :
    ∀ {n : Node} {y : K}, n.Sat γ → n.Shares lam y → y = 0
  | .leaf a, y, hs, h => by rw [← h]; exact hz a hs
  | .or l r, y, hs, h => by
    rcases hs with hs | hs
    · exact shares_sat hz hs h.1
    · exact shares_sat hz hs h.2
  | .and l r, y, hs, h => by
    obtain ⟨y1, y2, h0, h1, h2⟩ := h
    rw [← h0, shares_sat hz hs.1 h1, shares_sat hz hs.2 h2, add_zero]

theorem shares_congr {lam lam' : UInt32 → K} :
    ∀ {n : Node} {y : K}, (∀ a ∈ n.leaves, lam a = lam' a) → n.Shares lam y → n.Shares lam' y
  | .leaf a, y, h, hs => by
    have := h a (by simp [Node.leaves]); unfold Node.Shares at *; rw [← this]; exact hs
  | .or l r, y, h, hs =>
    ⟨shares_congr (fun a ha => h a (by simp [Node.leaves, ha])) hs.1,
     shares_congr (fun a ha => h a (by simp [Node.leaves, ha])) hs.2⟩
  | .and l r, y, h, hs => by
    obtain ⟨y1, y2, h0, h1, h2⟩ := hs
    exact ⟨y1, y2, h0, shares_congr (fun a ha => h a (by simp [Node.leaves, ha])) h1,
      shares_congr (fun a ha => h a (by simp [Node.leaves, ha])) h2⟩

theorem shares_zero : ∀ n : Node, n.Shares (fun _ => (0 : K)) 0
  | .leaf _ => rfl
  | .or l r => ⟨shares_zero l, shares_zero r⟩
  | .and l r => ⟨0, 0, add_zero 0, shares_zero l, shares_zero r⟩

theorem shares_add {lam lam' : UInt32 → K} :
    ∀ {n : Node} {y y' : K}, n.Shares lam y → n.Shares lam' y' → n.Shares (fun a => lam a + lam' a) (y + y')
  | .leaf a, y, y', h, h' => by unfold Node.Shares at *; rw [h, h']
  | .or l r, y, y', h, h' => ⟨shares_add h.1 h'.1, shares_add h.2 h'.2⟩
  | .and l r, y, y', h, h' => by
    obtain ⟨y1, y2, h0, h1, h2⟩ := h
    obtain ⟨z1, z2, g0, g1, g2⟩ := h'
    exact ⟨y1 + z1, y2 + z2, by rw [← h0, ← g0]; ring, shares_add h1 g1, shares_add h2 g2⟩

theorem shares_smul {lam : UInt32 → K} (c : K) :
    ∀ {n : Node} {y : K}, n.Shares lam y → n.Shares (fun a => c * lam a) (c * y)
  | .leaf a, y, h => by unfold Node.Shares at *; rw [h]
  | .or l r, y, h => ⟨shares_smul c h.1, shares_smul c h.2⟩
  | .and l r, y, h => by
    obtain ⟨y1, y2, h0, h1, h2⟩ := h
    exact ⟨c * y1, c * y2, by rw [← h0]; ring, shares_smul c h1, shares_smul c h2⟩

/-- With distinct attributes, an unsatisfying set of shares can be completed to a sharing of any secret. -/
theorem shares_unsat {γ : UInt32 → Prop} (y : K) :
    ∀ {n : Node}, n.leaves.Nodup → ¬ n.Sat γ → ∃ lam : UInt32 → K, (∀ a, γ a → lam a = 0) ∧ n.Shares lam y
  | .leaf a, _, hs => ⟨fun b => if b = a then y else 0, by
      intro b hb; dsimp only; rw [if_neg]; rintro rfl; exact hs hb, by simp [Node.Shares]⟩
  | .or l r, hd, hs => by
    rw [Node.Sat, not_or] at hs
    rw [Node.leaves, List.nodup_append] at hd
    obtain ⟨f, hf0, hf⟩ := shares_unsat y hd.1 hs.1
    obtain ⟨g, hg0, hg⟩ := shares_unsat y hd.2.1 hs.2
    refine ⟨fun a => if a ∈ l.leaves then f a else g a, ?_, ?_, ?_⟩
    · intro a ha; dsimp only; split
      · exact hf0 a ha
      · exact hg0 a ha
    · refine shares_congr (fun a ha => ?_) hf
      simp [ha]
    · refine shares_congr (fun a ha => ?_) hg
      rw [if_neg]; intro h'; exact hd.2.2 a h' a ha rfl
  | .and l r, hd, hs => by
    rw [Node.leaves, List.nodup_append] at hd
    by_cases hl : l.Sat γ
    · have hr : ¬ r.Sat γ := fun h => hs ⟨hl, h⟩
      obtain ⟨g, hg0, hg⟩ := shares_unsat y hd.2.1 hr
      refine ⟨fun a => if a ∈ l.leaves then 0 else g a, ?_, 0, y, zero_add y, ?_, ?_⟩
      · intro a ha; dsimp only; split
        · rfl
        · exact hg0 a ha
      · refine shares_congr (fun a ha => ?_) (shares_zero l)
        simp [ha]
      · refine shares_congr (fun a ha => ?_) hg
        rw [if_neg]; intro h'; exact hd.2.2 a h' a ha rfl
    · obtain ⟨f, hf0, hf⟩ := shares_unsat y hd.1 hl
      refine ⟨fun a => if a ∈ l.leaves then f a else 0, ?_, y, 0, add_zero y, ?_, ?_⟩
      · intro a ha; dsimp only; split
        · exact hf0 a ha
        · rfl
      · refine shares_congr (fun a ha => ?_) hf
        simp [ha]
      · refine shares_congr (fun a ha => ?_) (shares_zero r)
        rw [if_neg]; intro h'; exact hd.2.2 a h' a ha rfl

/-! ### Dot product with an infinite vector -/

/-- `Σ vᵢ wᵢ`. -/
def dotf : List Int → (Nat → K) → K
  | [], _ => 0
  | x :: xs, w => (x : K) * w 0 + dotf xs fun i => w (i + 1)

theorem dotf_append (a b : List Int) (w : Nat → K) :
    dotf (a ++ b) w = dotf a w + dotf b fun i => w (a.length + i) := by
  induction a generalizing w with
  | nil => simp [dotf]
  | cons x a ih =>
    simp only [List.cons_append, dotf, ih, List.length_cons]
    rw [add_assoc]; congr 3; funext i; congr 1; omega

theorem dotf_replicate (n : Nat) (w : Nat → K) : dotf (List.replicate n 0) w = 0 := by
  induction n generalizing w with
  | zero => rfl
  | succ n ih => simp [List.replicate_succ, dotf, ih]

theorem resize_of_le {α : Type} {v : List α} {c : Nat} {x : α} (h : v.length ≤ c) :
    resize v c x = v ++ List.replicate (c - v.length) x := by
  simp [resize, List.take_of_length_le h]

theorem dotf_resize {v : List Int} {c : Nat} (h : v.length ≤ c) (w : Nat → K) :
    dotf (resize v c 0) w = dotf v w := by
  rw [resize_of_le h, dotf_append, dotf_replicate, add_zero]

theorem dotf_congr {v : List Int} {w w' : Nat → K} (h : ∀ i < v.length, w i = w' i) : dotf v w = dotf v w' := by
  induction v generalizing w w' with
  | nil => rfl
  | cons x v ih =>
    simp only [dotf]
    rw [h 0 (by simp), ih fun i hi => h (i + 1) (by simp; omega)]

theorem dotf_vec1 {v : List Int} {c : Nat} (h : v.length ≤ c) (w : Nat → K) :
    dotf (resize v c 0 ++ [1]) w = dotf v w + w c := by
  rw [dotf_append, dotf_resize h, resize_length]; simp [dotf]

theorem dotf_vec2 (c : Nat) (w : Nat → K) : dotf (List.replicate c 0 ++ [-1]) w = - w c := by
  rw [dotf_append, dotf_replicate]; simp [dotf]

/-! ### The loop -/

theorem mspLoop_sound (w : Nat → K) (lam : UInt32 → K) (Q : List (Node × List Int)) (c : Nat)
    (acc : List (UInt32 × List Int)) :
    (∀ p ∈ Q, p.2.length ≤ c) →
    (∀ p ∈ (mspLoop Q c acc).2, dotf p.2 w = lam p.1) →
    (∀ p ∈ acc, dotf p.2 w = lam p.1) ∧ ∀ p ∈ Q, p.1.Shares lam (dotf p.2 w) := by
  induction Q, c, acc using mspLoop.induct with
  | case1 c acc => intro _ h; rw [mspLoop] at h; exact ⟨h, by simp⟩
  | case2 c acc n1 n2 v q vec1 vec2 ih =>
    intro hl h
    rw [mspLoop] at h
    have hv := hl (.and n1 n2, v) (by simp)
    simp only at hv
    obtain ⟨h1, h2⟩ := ih (by
      intro p hp
      simp only [List.mem_append, List.mem_cons, List.not_mem_nil, or_false] at hp
      rcases hp with hp | rfl | rfl
      · have := hl p (by simp [hp]); omega
      · simp [vec1, resize_length]
      · simp [vec2]) h
    refine ⟨h1, ?_⟩
    intro p hp
    rcases List.mem_cons.1 hp with rfl | hp
    · have g1 := h2 (n1, vec1) (by simp)
      have g2 := h2 (n2, vec2) (by simp)
      simp only [vec1, vec2, dotf_vec1 hv, dotf_vec2] at g1 g2
      exact ⟨_, _, by ring, g1, g2⟩
    · exact h2 p (by simp [hp])
  | case3 c acc n1 n2 v q ih =>
    intro hl h
    rw [mspLoop] at h
    have hv := hl (.or n1 n2, v) (by simp)
    obtain ⟨h1, h2⟩ := ih (by
      intro p hp
      simp only [List.mem_append, List.mem_cons, List.not_mem_nil, or_false] at hp
      rcases hp with hp | rfl | rfl
      · exact hl p (by simp [hp])
      · exact hv
      · exact hv) h
    refine ⟨h1, ?_⟩
    intro p hp
    rcases List.mem_cons.1 hp with rfl | hp
    · exact ⟨h2 (n1, v) (by simp), h2 (n2, v) (by simp)⟩
    · exact h2 p (by simp [hp])
  | case4 c acc a v q ih =>
    intro hl h
    rw [mspLoop] at h
    obtain ⟨h1, h2⟩ := ih (fun p hp => hl p (by simp [hp])) h
    refine ⟨fun p hp => h1 p (by simp [hp]), ?_⟩
    intro p hp
    rcases List.mem_cons.1 hp with rfl | hp
    · exact (h1 (a, v) (by simp)).symm
    · exact h2 p hp

theorem mspLoop_complete (lam : UInt32 → K) (Q : List (Node × List Int)) (c : Nat)
    (acc : List (UInt32 × List Int)) :
    ∀ w : Nat → K, (∀ p ∈ Q, p.2.length ≤ c) → (∀ p ∈ acc, p.2.length ≤ c) →
    (∀ p ∈ acc, dotf p.2 w = lam p.1) → (∀ p ∈ Q, p.1.Shares lam (dotf p.2 w)) →
    ∃ w' : Nat → K, (∀ i < c, w' i = w i) ∧ ∀ p ∈ (mspLoop Q c acc).2, dotf p.2 w' = lam p.1 := by
  induction Q, c, acc using mspLoop.induct with
  | case1 c acc => intro w _ _ h _; rw [mspLoop]; exact ⟨w, fun _ _ => rfl, h⟩
  | case2 c acc n1 n2 v q vec1 vec2 ih =>
    intro w hl hla ha hq
    rw [mspLoop]
    have hv := hl (.and n1 n2, v) (by simp)
    simp only at hv
    obtain ⟨y1, y2, h0, h1, h2⟩ := hq (.and n1 n2, v) (by simp)
    simp only at h0
    let w1 : Nat → K := fun i => if i = c then -y2 else w i
    have hw1 : ∀ u : List Int, u.length ≤ c → dotf u w1 = dotf u w := by
      intro u hu; apply dotf_congr; intro i hi; simp only [w1]; rw [if_neg (by omega)]
    have hwc : w1 c = -y2 := by simp [w1]
    obtain ⟨w', e1, e2⟩ := ih w1 (by
        intro p hp
        simp only [List.mem_append, List.mem_cons, List.not_mem_nil, or_false] at hp
        rcases hp with hp | rfl | rfl
        · have := hl p (by simp [hp]); omega
        · simp [vec1, resize_length]
        · simp [vec2]) (fun p hp => by have := hla p hp; omega)
        (fun p hp => by rw [hw1 _ (hla p hp)]; exact ha p hp) (by
        intro p hp
        simp only [List.mem_append, List.mem_cons, List.not_mem_nil, or_false] at hp
        rcases hp with hp | rfl | rfl
        · rw [hw1 _ (hl p (by simp [hp]))]; exact hq p (by simp [hp])
        · simp only [vec1]
          rw [dotf_vec1 hv, hw1 _ hv, hwc, show dotf v w + -y2 = y1 by rw [← h0]; ring]; exact h1
        · simp only [vec2]
          rw [dotf_vec2, hwc, neg_neg]; exact h2)
    refine ⟨w', fun i hi => ?_, e2⟩
    rw [e1 i (by omega)]; simp only [w1]; rw [if_neg (by omega)]
  | case3 c acc n1 n2 v q ih =>
    intro w hl hla ha hq
    rw [mspLoop]
    have hv := hl (.or n1 n2, v) (by simp)
    have hs := hq (.or n1 n2, v) (by simp)
    exact ih w (by
      intro p hp
      simp only [List.mem_append, List.mem_cons, List.not_mem_nil, or_false] at hp
      rcases hp with hp | rfl | rfl
      · exact hl p (by simp [hp])
      · exact hv
      · exact hv) hla ha (by
      intro p hp
      simp only [List.mem_append, List.mem_cons, List.not_mem_nil, or_false] at hp
      rcases hp with hp | rfl | rfl
      · exact hq p (by simp [hp])
      · exact hs.1
      · exact hs.2)
  | case4 c acc a v q ih =>
    intro w hl hla ha hq
    rw [mspLoop]
    exact ih w (fun p hp => hl p (by simp [hp])) (by
      intro p hp
      rcases List.mem_append.1 hp with hp | hp
      · exact hla p hp
      · simp at hp; subst hp; exact hl (.leaf a, v) (by simp)) (by
      intro p hp
      rcases List.mem_append.1 hp with hp | hp
      · exact ha p hp
      · simp at hp; subst hp; exact (hq (.leaf a, v) (by simp)).symm) (fun p hp => hq p (by simp [hp]))

/-- Shape of the result of the loop: column count, attributes, vector lengths and entries. -/
theorem mspLoop_shape (Q : List (Node × List Int)) (c : Nat) (acc : List (UInt32 × List Int)) :
    (∀ p ∈ Q, p.2.length ≤ c) → (∀ p ∈ acc, p.2.length ≤ c) →
    (mspLoop Q c acc).1 = c + (Q.map fun p => p.1.ands).sum ∧
    ((mspLoop Q c acc).2.map Prod.fst).Perm (acc.map Prod.fst ++ (Q.map fun p => p.1.leaves).flatten) ∧
    (∀ p ∈ (mspLoop Q c acc).2, p.2.length ≤ (mspLoop Q c acc).1) := by
  induction Q, c, acc using mspLoop.induct with
  | case1 c acc => intro _ h; rw [mspLoop]; simpa using h
  | case2 c acc n1 n2 v q vec1 vec2 ih =>
    intro hl hla
    rw [mspLoop]
    obtain ⟨e1, e2, e3⟩ := ih (by
        intro p hp
        simp only [List.mem_append, List.mem_cons, List.not_mem_nil, or_false] at hp
        rcases hp with hp | rfl | rfl
        · have := hl p (by simp [hp]); omega
        · simp [vec1, resize_length]
        · simp [vec2]) (fun p hp => by have := hla p hp; omega)
    refine ⟨?_, ?_, e3⟩
    · rw [e1]; simp [Node.ands]; omega
    · refine e2.trans (List.Perm.append_left _ ?_)
      simp only [List.map_append, List.map_cons, List.map_nil, List.flatten_append, List.flatten_cons,
        List.flatten_nil, List.append_nil, Node.leaves]
      exact List.perm_append_comm
  | case3 c acc n1 n2 v q ih =>
    intro hl hla
    rw [mspLoop]
    obtain ⟨e1, e2, e3⟩ := ih (by
      intro p hp
      simp only [List.mem_append, List.mem_cons, List.not_mem_nil, or_false] at hp
      rcases hp with hp | rfl | rfl
      · exact hl p (by simp [hp])
      · exact hl (.or n1 n2, v) (by simp)
      · exact hl (.or n1 n2, v) (by simp)) hla
    refine ⟨?_, ?_, e3⟩
    · rw [e1]; simp [Node.ands]; omega
    · refine e2.trans (List.Perm.append_left _ ?_)
      simp only [List.map_append, List.map_cons, List.map_nil, List.flatten_append, List.flatten_cons,
        List.flatten_nil, List.append_nil, Node.leaves]
      exact List.perm_append_comm
  | case4 c acc a v q ih =>
    intro hl hla
    rw [mspLoop]
    obtain ⟨e1, e2, e3⟩ := ih (fun p hp => hl p (by simp [hp])) (by
      intro p hp
      rcases List.mem_append.1 hp with hp | hp
      · exact hla p hp
      · simp at hp; subst hp; exact hl (.leaf a, v) (by simp))
    refine ⟨?_, ?_, e3⟩
    · rw [e1]; simp [Node.ands]
    · refine e2.trans ?_
      simp [Node.leaves]

/-- Admissible vector: first entry 0 or 1, others between -1 and 1. -/
def VecOk (v : List Int) : Prop := ∃ x xs, v = x :: xs ∧ (x = 0 ∨ x = 1) ∧ ∀ y ∈ xs, -1 ≤ y ∧ y ≤ 1

theorem vecOk_resize {v : List Int} {c : Nat} (h : VecOk v) (hc : 0 < c) : VecOk (resize v c 0) := by
  obtain ⟨x, xs, rfl, hx, hxs⟩ := h
  obtain ⟨c, rfl⟩ : ∃ c', c = c' + 1 := ⟨c - 1, by omega⟩
  refine ⟨x, xs.take c ++ List.replicate (c - xs.length) 0, ?_, hx, ?_⟩
  · simp [resize]
  · intro y hy
    rcases List.mem_append.1 hy with h' | h'
    · exact hxs y (List.mem_of_mem_take h')
    · simp at h'; omega

theorem vecOk_append {v : List Int} {z : Int} (h : VecOk v) (hz : -1 ≤ z ∧ z ≤ 1) : VecOk (v ++ [z]) := by
  obtain ⟨x, xs, rfl, hx, hxs⟩ := h
  refine ⟨x, xs ++ [z], rfl, hx, ?_⟩
  intro y hy
  rcases List.mem_append.1 hy with h' | h'
  · exact hxs y h'
  · simp at h'; omega

theorem vecOk_replicate {c : Nat} (hc : 0 < c) : VecOk (List.replicate c 0) := by
  obtain ⟨c, rfl⟩ : ∃ c', c = c' + 1 := ⟨c - 1, by omega⟩
  exact ⟨0, List.replicate c 0, rfl, Or.inl rfl, by intro y hy; simp at hy; omega⟩

theorem mspLoop_vecOk (Q : List (Node × List Int)) (c : Nat) (acc : List (UInt32 × List Int)) :
    0 < c → (∀ p ∈ Q, VecOk p.2) → (∀ p ∈ acc, VecOk p.2) →
    ∀ p ∈ (mspLoop Q c acc).2, VecOk p.2 := by
  induction Q, c, acc using mspLoop.induct with
  | case1 c acc => intro _ _ h; rw [mspLoop]; exact h
  | case2 c acc n1 n2 v q vec1 vec2 ih =>
    intro hc hl hla
    rw [mspLoop]
    refine ih (by omega) (fun p hp => ?_) hla
    simp only [List.mem_append, List.mem_cons, List.not_mem_nil, or_false] at hp
    rcases hp with hp | rfl | rfl
    · exact hl p (by simp [hp])
    · exact vecOk_append (vecOk_resize (hl (.and n1 n2, v) (by simp)) hc) (by omega)
    · exact vecOk_append (vecOk_replicate hc) (by omega)
  | case3 c acc n1 n2 v q ih =>
    intro hc hl hla
    rw [mspLoop]
    refine ih hc (fun p hp => ?_) hla
    simp only [List.mem_append, List.mem_cons, List.not_mem_nil, or_false] at hp
    rcases hp with hp | rfl | rfl
    · exact hl p (by simp [hp])
    · exact hl (.or n1 n2, v) (by simp)
    · exact hl (.or n1 n2, v) (by simp)
  | case4 c acc a v q ih =>
    intro hc hl hla
    rw [mspLoop]
    refine ih hc (fun p hp => hl p (by simp [hp])) (fun p hp => ?_)
    rcases List.mem_append.1 hp with hp | hp
    · exact hla p hp
    · simp at hp; subst hp; exact hl (.leaf a, v) (by simp)

theorem addFirst_range {v : List Int} (h : VecOk v) : ∀ x ∈ addFirst v, -1 ≤ x ∧ x ≤ 2 := by
  obtain ⟨x, xs, rfl, hx, hxs⟩ := h
  intro z hz
  rcases List.mem_cons.1 hz with rfl | hz
  · omega
  · obtain ⟨y, hy, rfl⟩ := List.mem_map.1 hz
    have := hxs y hy
    omega

theorem addFirst_length (v : List Int) : (addFirst v).length = v.length := by
  cases v <;> simp [addFirst]

/-! ### Maps -/

theorem hget_hinsert {κ α : Type} [DecidableEq κ] (m : List (κ × α)) (k k' : κ) (a : α) :
    hget (hinsert m k a) k' = if k' = k then some a else hget m k' := by
  unfold hget hinsert
  rw [List.find?_cons]
  by_cases h : k' = k
  · simp [h]
  · simp only [h, if_false, Ne.symm h, decide_false]
    congr 1
    induction m with
    | nil => rfl
    | cons p m ih =>
      by_cases hp : p.1 = k
      · rw [List.filter_cons_of_neg (by simpa using hp), ih, List.find?_cons_of_neg (by simp [hp, Ne.symm h])]
      · rw [List.filter_cons_of_pos (by simpa using hp), List.find?_cons, List.find?_cons, ih]

theorem hget_hremove {κ α : Type} [DecidableEq κ] (m : List (κ × α)) (k k' : κ) :
    hget (hremove m k) k' = if k' = k then none else hget m k' := by
  unfold hget hremove
  by_cases h : k' = k
  · rw [if_pos h, h]
    simp [List.find?_eq_none]
  · rw [if_neg h]
    congr 1
    induction m with
    | nil => rfl
    | cons p m ih =>
      by_cases hp : p.1 = k
      · rw [List.filter_cons_of_neg (by simpa using hp), ih, List.find?_cons_of_neg (by simp [hp, Ne.symm h])]
      · rw [List.filter_cons_of_pos (by simpa using hp), List.find?_cons, List.find?_cons, ih]

/-! ### Assembly -/

theorem mspAssemble_ok (c : Nat) : ∀ (rows : List (UInt32 × List Int)) (i : Nat) (mat : List (List Int))
    (map : List (UInt32 × Nat)) (vec : List UInt32),
    (∀ p ∈ rows, hget map p.1 = none) → (rows.map Prod.fst).Nodup →
    ∃ map', mspAssemble c rows i mat map vec =
        .ok (mat ++ rows.map (fun p => addFirst (resize p.2 c 0)), map', vec ++ rows.map Prod.fst) ∧
      ∀ a, hget map' a = if a ∈ rows.map Prod.fst then some (i + (rows.map Prod.fst).idxOf a) else hget map a
  | [], i, mat, map, vec, _, _ => ⟨map, by simp [mspAssemble], by simp⟩
  | (b, v) :: rows, i, mat, map, vec, h1, h2 => by
    rw [List.map_cons, List.nodup_cons] at h2
    obtain ⟨map', e1, e2⟩ := mspAssemble_ok c rows (i + 1) (mat ++ [addFirst (resize v c 0)]) (hinsert map b i)
      (vec ++ [b]) (by
        intro p hp
        rw [hget_hinsert, if_neg]
        · exact h1 p (by simp [hp])
        · rintro rfl; exact h2.1 (List.mem_map.2 ⟨p, hp, rfl⟩)) h2.2
    refine ⟨map', ?_, ?_⟩
    · have := h1 (b, v) (by simp)
      simp only at this
      simp only [mspAssemble, this, e1]
      simp
    · intro a
      rw [e2 a, hget_hinsert]
      by_cases hab : a = b
      · subst hab
        rw [if_neg h2.1]; simp
      · by_cases ham : a ∈ rows.map Prod.fst
        · rw [if_pos ham, if_pos (by simp only [List.map_cons, List.mem_cons]; exact Or.inr ham), List.map_cons,
            List.idxOf_cons_ne _ (Ne.symm hab)]
          congr 1; omega
        · rw [if_neg ham, if_neg hab, if_neg]
          rw [List.map_cons, List.mem_cons]; tauto

theorem mspAssemble_err (c : Nat) : ∀ (rows : List (UInt32 × List Int)) (i : Nat) (mat : List (List Int))
    (map : List (UInt32 × Nat)) (vec : List UInt32),
    ¬ ((∀ p ∈ rows, hget map p.1 = none) ∧ (rows.map Prod.fst).Nodup) →
    mspAssemble c rows i mat map vec = .err (.deserialization "error deserializing MSP, leaf already inserted")
  | [], i, mat, map, vec, h => by simp at h
  | (b, v) :: rows, i, mat, map, vec, h => by
    unfold mspAssemble
    simp only []
    cases hb : hget map b with
    | some _ => rfl
    | none =>
      simp only []
      apply mspAssemble_err
      rintro ⟨g1, g2⟩
      apply h
      constructor
      · intro p hp
        rcases List.mem_cons.1 hp with rfl | hp
        · exact hb
        · have := g1 p hp
          rw [hget_hinsert] at this
          split at this
          · simp at this
          · exact this
      · rw [List.map_cons, List.nodup_cons]
        refine ⟨?_, g2⟩
        intro hm
        obtain ⟨p, hp, hpb⟩ := List.mem_map.1 hm
        have := g1 p hp
        rw [hpb, hget_hinsert, if_pos rfl] at this
        simp at this

/-! ### Lists as vectors -/

theorem reduceAdd_eq (l : List K) : reduceAdd l = l.sum := by
  cases l with
  | nil => rfl
  | cons x xs =>
    simp only [reduceAdd, List.sum_cons]
    induction xs generalizing x with
    | nil => simp
    | cons y ys ih => simp only [List.foldl_cons, ih, List.sum_cons]; ring

theorem foldl_add_eq (l : List K) (x : K) : l.foldl (· + ·) x = x + l.sum := by
  induction l generalizing x with
  | nil => simp
  | cons y ys ih => simp only [List.foldl_cons, ih, List.sum_cons]; ring

theorem prodScal_nil {I : Type} (conv : I → K) (u : List K) : prodScal conv [] u = 0 := by
  simp [prodScal, reduceAdd]

theorem prodScal_cons {I : Type} (conv : I → K) (x : I) (v : List I) (b : K) (u : List K) :
    prodScal conv (x :: v) (b :: u) = conv x * b + prodScal conv v u := by
  simp [prodScal, reduceAdd_eq]

theorem prodScal_map {I : Type} (conv : I → K) (v : List I) (u : List K) :
    prodScal conv v u = prodScal id (v.map conv) u := by
  simp [prodScal, List.zip_map_left, Function.comp_def]

theorem scalarFromI32_eq (n : Int) : (scalarFromI32 n : K) = (n : K) := by
  unfold scalarFromI32
  simp only []
  split
  · rename_i h
    conv_rhs => rw [show n = -(n.natAbs : Int) by omega]
    rw [Int.cast_neg, Int.cast_natCast]
  · rename_i h
    conv_rhs => rw [show n = (n.natAbs : Int) by omega]
    rw [Int.cast_natCast]

/-- Change of basis: `addFirst` moves the secret from the first coordinate to the sum of all coordinates. -/
theorem prodScal_addFirst_aux (x : Int) (xs : List Int) (u : List K) (h : xs.length = u.length) :
    prodScal (fun n : Int => (n : K)) (xs.map (· + x)) u =
      (x : K) * u.sum + prodScal (fun n : Int => (n : K)) xs u := by
  induction xs generalizing u with
  | nil => cases u <;> simp_all [prodScal_nil]
  | cons y ys ih =>
    cases u with
    | nil => simp at h
    | cons b u =>
      simp only [List.map_cons, prodScal_cons, List.sum_cons]
      rw [ih u (by simpa using h)]
      push_cast; ring

theorem prodScal_eq_dotf (v : List Int) (u : List K) (h : v.length = u.length) :
    prodScal (fun n : Int => (n : K)) v u = dotf v fun i => u.getD i 0 := by
  induction v generalizing u with
  | nil => simp [prodScal_nil, dotf]
  | cons x v ih =>
    cases u with
    | nil => simp at h
    | cons b u =>
      rw [prodScal_cons, dotf, ih u (by simpa using h)]
      simp

theorem prodScal_addFirst (v : List Int) (u : List K) (h : v.length = u.length) :
    prodScal (fun n : Int => (n : K)) (addFirst v) u =
      dotf v fun i => if i = 0 then u.sum else u.getD i 0 := by
  cases v with
  | nil => simp [addFirst, prodScal_nil, dotf]
  | cons x xs =>
    cases u with
    | nil => simp at h
    | cons b u =>
      rw [addFirst, prodScal_cons, prodScal_addFirst_aux x xs u (by simpa using h), dotf,
        prodScal_eq_dotf xs u (by simpa using h)]
      simp
      ring

/-! ### The compiled program -/

/-- What the compilation guarantees. -/
structure MspFor (n : Node) (m : Msp Int) : Prop where
  nbRow : m.nbRow = m.matrix.length
  rta : m.rowToAttr.length = m.matrix.length
  nbCol : m.nbCol = n.ands + 1
  width : ∀ row ∈ m.matrix, row.length = m.nbCol
  perm : m.rowToAttr.Perm n.leaves
  nodup : m.rowToAttr.Nodup
  lookup : ∀ a i, m.getRowFromAttr a = some i ↔ m.rowToAttr[i]? = some a
  range : ∀ row ∈ m.matrix, ∀ x ∈ row, -1 ≤ x ∧ x ≤ 2
  shares : ∀ {K : Type} [Field K] (lam : UInt32 → K) (y : K),
    (∃ u : List K, u.length = m.nbCol ∧ u.sum = y ∧
      ∀ (i : Nat) (row : List Int) (a : UInt32), m.matrix[i]? = some row → m.rowToAttr[i]? = some a → prodScal (fun n : Int => (n : K)) row u = lam a)
    ↔ n.Shares lam y

theorem toMsp_spec (n : Node) :
    (n.leaves.Nodup ∧ ∃ m, n.toMsp = .ok m ∧ MspFor n m) ∨
    (¬ n.leaves.Nodup ∧ n.toMsp = .err (.deserialization "error deserializing MSP, leaf already inserted")) := by
  have hshape := mspLoop_shape [(n, [1])] 1 [] (by simp) (by simp)
  have hvec := mspLoop_vecOk [(n, [1])] 1 [] (by omega)
    (by intro p hp; simp at hp; subst hp; exact ⟨1, [], rfl, Or.inr rfl, by simp⟩) (by simp)
  obtain ⟨e1, e2, e3⟩ := hshape
  simp only [List.map_cons, List.map_nil, List.sum_cons, List.sum_nil, List.nil_append, List.flatten_cons,
    List.flatten_nil, List.append_nil, Nat.add_zero] at e1 e2
  by_cases hd : n.leaves.Nodup
  · left
    refine ⟨hd, ?_⟩
    have hd' : ((mspLoop [(n, [1])] 1 []).2.map Prod.fst).Nodup := e2.nodup_iff.2 hd
    obtain ⟨map', g1, g2⟩ := mspAssemble_ok (mspLoop [(n, [1])] 1 []).1 (mspLoop [(n, [1])] 1 []).2 0 [] [] []
      (by intro p _; rfl) hd'
    refine ⟨_, by unfold Node.toMsp; simp only []; rw [g1]; rfl, ?_⟩
    set c := (mspLoop [(n, [1])] 1 []).1 with hc
    set rows := (mspLoop [(n, [1])] 1 []).2 with hrows
    simp only [List.nil_append]
    have hwidth : ∀ p ∈ rows, (addFirst (resize p.2 c 0)).length = c := by
      intro p _; rw [addFirst_length, resize_length]
    constructor
    · rfl
    · simp
    · simp only []; omega
    · intro row hrow
      obtain ⟨p, hp, rfl⟩ := List.mem_map.1 hrow
      exact hwidth p hp
    · exact e2
    · exact hd'
    · intro a i
      simp only [Msp.getRowFromAttr]
      rw [g2 a]
      constructor
      · intro h
        split at h
        · rename_i hm
          simp at h
          subst h
          rw [List.getElem?_eq_getElem (List.idxOf_lt_length_iff.2 hm), List.getElem_idxOf]
        · simp [hget] at h
      · intro h
        obtain ⟨hi, hia⟩ := List.getElem?_eq_some_iff.1 h
        rw [if_pos (by rw [← hia]; exact List.getElem_mem hi)]
        rw [← hia, hd'.idxOf_getElem]; simp
    · intro row hrow
      obtain ⟨p, hp, rfl⟩ := List.mem_map.1 hrow
      exact addFirst_range (vecOk_resize (hvec p hp) (by omega))
    · intro K _ lam y
      simp only []
      have hrowdot : ∀ (u : List K), u.length = c → ∀ p ∈ rows,
          prodScal (fun n : Int => (n : K)) (addFirst (resize p.2 c 0)) u =
            dotf p.2 fun i => if i = 0 then u.sum else u.getD i 0 := by
        intro u hu p hp
        rw [prodScal_addFirst _ _ (by rw [resize_length, hu]), dotf_resize (e3 p hp)]
      constructor
      · rintro ⟨u, hu, hy, h⟩
        have h' : ∀ p ∈ rows, dotf p.2 (fun i => if i = 0 then u.sum else u.getD i 0) = lam p.1 := by
          intro p hp
          rw [← hrowdot u hu p hp]
          obtain ⟨i, hi, hip⟩ := List.getElem_of_mem hp
          apply h i _ p.1
          · rw [List.getElem?_map, List.getElem?_eq_getElem hi, hip]; rfl
          · rw [List.getElem?_map, List.getElem?_eq_getElem hi, hip]; rfl
        have := (mspLoop_sound _ lam [(n, [1])] 1 [] (by simp) h').2 (n, [1]) (by simp)
        simpa [dotf, hy] using this
      · intro hs
        obtain ⟨w', h0, h1⟩ := mspLoop_complete lam [(n, [1])] 1 [] (fun _ => y) (by simp) (by simp) (by simp)
          (by intro p hp; simp at hp; subst hp; simpa [dotf] using hs)
        have hw0 := h0 0 (by omega)
        have hcpos : 0 < c := by omega
        obtain ⟨c', hc'⟩ : ∃ c', c = c' + 1 := ⟨c - 1, by omega⟩
        let tl : List K := (List.range c').map fun i => w' (i + 1)
        let u : List K := (y - tl.sum) :: tl
        have hu : u.length = c := by simp [u, tl, hc']
        have hsum : u.sum = y := by simp [u]
        refine ⟨u, hu, hsum, ?_⟩
        intro i row a hr ha
        rw [List.getElem?_map] at hr ha
        cases hri : rows[i]? with
        | none => rw [hri] at hr; simp at hr
        | some p =>
          rw [hri] at hr ha
          simp at hr ha
          subst hr; subst ha
          have hp : p ∈ rows := List.mem_of_getElem? hri
          rw [hrowdot u hu p hp, ← h1 p hp]
          apply dotf_congr
          intro j hj
          have := e3 p hp
          cases j with
          | zero => simp [hsum, hw0]
          | succ j =>
            have hjc : j < c' := by omega
            simp [u, tl, hjc]
  · right
    refine ⟨hd, ?_⟩
    unfold Node.toMsp
    simp only []
    rw [mspAssemble_err]
    · rfl
    · rintro ⟨_, h⟩; exact hd (e2.nodup_iff.1 h)

end Abe

import Verif.Model.Res
import Mathlib.Data.List.Forall2

/-! Helper lemmas on outcomes, indexing and loops. -/

namespace Abe

variable {ε : Type} {α β γ : Type}

theorem idx_of_lt {l : List α} {i : Nat} (h : i < l.length) : (idx l i : Res ε α) = .ok l[i] := by
  simp [idx, h]

theorem idx_eq_ok {l : List α} {i : Nat} {a : α} : (idx l i : Res ε α) = .ok a ↔ l[i]? = some a := by
  unfold idx; cases h : l[i]? <;> simp

theorem idx_eq_panic {l : List α} {i : Nat} : (idx l i : Res ε α) = .panic ↔ l.length ≤ i := by
  unfold idx
  cases h : l[i]?
  · simpa using h
  · simp
    obtain ⟨h1, _⟩ := List.getElem?_eq_some_iff.1 h
    omega

theorem idx_ne_err {l : List α} {i : Nat} {e : ε} : (idx l i : Res ε α) ≠ .err e := by
  unfold idx; cases h : l[i]? <;> simp

@[simp] theorem mapRes_nil (f : α → Res ε β) : mapRes f [] = .ok [] := rfl

@[simp] theorem mapRes_cons (f : α → Res ε β) (a : α) (l : List α) :
    mapRes f (a :: l) = (f a >>= fun b => mapRes f l >>= fun bs => .ok (b :: bs)) := rfl

theorem mapRes_of_ok {f : α → Res ε β} {g : α → β} {l : List α} (h : ∀ a ∈ l, f a = .ok (g a)) :
    mapRes f l = .ok (l.map g) := by
  induction l with
  | nil => rfl
  | cons a l ih =>
    rw [mapRes_cons, h a (by simp), ih (fun b hb => h b (by simp [hb]))]
    rfl

theorem mapRes_length {f : α → Res ε β} {l : List α} {bs : List β} (h : mapRes f l = .ok bs) :
    bs.length = l.length := by
  induction l generalizing bs with
  | nil => simp at h; simp [← h]
  | cons a l ih =>
    rw [mapRes_cons, Res.bind_eq_ok] at h
    obtain ⟨b, _, h⟩ := h
    rw [Res.bind_eq_ok] at h
    obtain ⟨bs', h1, h2⟩ := h
    simp at h2
    rw [← h2, List.length_cons, ih h1, List.length_cons]

theorem mapRes_eq_ok {f : α → Res ε β} {l : List α} {bs : List β} :
    mapRes f l = .ok bs ↔ List.Forall₂ (fun a b => f a = .ok b) l bs := by
  induction l generalizing bs with
  | nil => constructor
           · intro h; simp at h; subst h; exact .nil
           · intro h; cases h; rfl
  | cons a l ih =>
    rw [mapRes_cons, Res.bind_eq_ok]
    constructor
    · rintro ⟨b, h1, h⟩
      rw [Res.bind_eq_ok] at h
      obtain ⟨bs', h2, h3⟩ := h
      simp at h3; subst h3
      exact .cons h1 (ih.1 h2)
    · intro h
      cases h with
      | cons h1 h2 => exact ⟨_, h1, by rw [ih.2 h2]; rfl⟩

theorem mapRes_ne_panic {f : α → Res ε β} {l : List α} (h : ∀ a ∈ l, f a ≠ .panic) :
    mapRes f l ≠ .panic := by
  induction l with
  | nil => simp
  | cons a l ih =>
    rw [mapRes_cons, Ne, Res.bind_eq_panic]
    rintro (h1 | ⟨b, _, h2⟩)
    · exact h a (by simp) h1
    · rw [Res.bind_eq_panic] at h2
      rcases h2 with h2 | ⟨_, _, h3⟩
      · exact ih (fun b hb => h b (by simp [hb])) h2
      · simp at h3

@[simp] theorem foldRes_nil (f : β → α → Res ε β) (b : β) : foldRes f b [] = .ok b := rfl

@[simp] theorem foldRes_cons (f : β → α → Res ε β) (b : β) (a : α) (l : List α) :
    foldRes f b (a :: l) = (f b a >>= fun b' => foldRes f b' l) := rfl

/-- Invariant rule for `foldRes`: the loop succeeds and preserves an invariant depending on the processed part. -/
theorem foldRes_inv {f : β → α → Res ε β} (P : β → Prop) {l : List α} {b : β} (h0 : P b)
    (hstep : ∀ b a, a ∈ l → P b → ∃ b', f b a = .ok b' ∧ P b') :
    ∃ b', foldRes f b l = .ok b' ∧ P b' := by
  induction l generalizing b with
  | nil => exact ⟨b, rfl, h0⟩
  | cons a l ih =>
    obtain ⟨b1, h1, hp⟩ := hstep b a (by simp) h0
    obtain ⟨b2, h2, hp2⟩ := ih hp (fun b a ha => hstep b a (by simp [ha]))
    exact ⟨b2, by rw [foldRes_cons, h1]; exact h2, hp2⟩

/-- As `foldRes_inv`, with an invariant indexed by the processed prefix. -/
theorem foldRes_inv' {f : β → α → Res ε β} (P : List α → β → Prop) (l : List α) {b : β} (h0 : P [] b)
    (hstep : ∀ pre a post b, l = pre ++ a :: post → P pre b → ∃ b', f b a = .ok b' ∧ P (pre ++ [a]) b') :
    ∃ b', foldRes f b l = .ok b' ∧ P l b' := by
  suffices H : ∀ post pre b, l = pre ++ post → P pre b → ∃ b', foldRes f b post = .ok b' ∧ P l b' from
    H l [] b rfl h0
  intro post
  induction post with
  | nil => intro pre b hl hp; exact ⟨b, rfl, by simpa [hl] using hp⟩
  | cons a post ih =>
    intro pre b hl hp
    obtain ⟨b1, h1, hp1⟩ := hstep pre a post b hl hp
    obtain ⟨b2, h2, hp2⟩ := ih (pre ++ [a]) b1 (by simp [hl]) hp1
    exact ⟨b2, by rw [foldRes_cons, h1]; exact h2, hp2⟩

theorem resize_length (l : List α) (n : Nat) (x : α) : (resize l n x).length = n := by
  simp [resize]; omega

theorem getD_resize (l : List α) (n : Nat) (x : α) (i : Nat) :
    (resize l n x).getD i x = if i < n then l.getD i x else x := by
  unfold resize
  rw [List.getD_eq_getElem?_getD, List.getElem?_append]
  simp only [List.length_take, List.getD_eq_getElem?_getD]
  split
  · rename_i h
    rw [List.getElem?_take]
    simp [show i < n by omega]
  · rename_i h
    rw [List.getElem?_replicate]
    by_cases hn : i < n
    · simp only [hn, if_true]
      rw [List.getElem?_eq_none (by omega)]
      split <;> simp
    · simp only [hn, if_false]
      split <;> simp

end Abe

import Verif.Spec.FfiContract
import Verif.Proofs.FfiHeader

/-!
# Memory safety of the C interface for callers who keep the contract
-/

namespace Abe

open Prog

set_option linter.unusedSectionVars false

section
variable {E D α β : Type}

/-- A part of a foreign function that does not touch memory and has defined behaviour. -/
def Tame (p : Prog E D α) : Prop :=
  (∃ a, p = pure a) ∨ (∃ e, p = fun s => (.ret 1, { s with err := some e })) ∨ p = panicked

theorem Tame.bind {p : Prog E D α} {f : α → Prog E D β} (hp : Tame p) (hf : ∀ a, Tame (f a)) : Tame (p >>= f) := by
  rcases hp with ⟨a, rfl⟩ | ⟨e, rfl⟩ | rfl
  · exact hf a
  · exact .inr (.inl ⟨e, rfl⟩)
  · exact .inr (.inr rfl)

theorem tame_pure (a : α) : Tame (pure a : Prog E D α) := .inl ⟨a, rfl⟩
theorem tame_bail (m : Bytes) : Tame (bail m : Prog E D α) := .inr (.inl ⟨.generic m, rfl⟩)
theorem tame_panicked : Tame (panicked : Prog E D α) := .inr (.inr rfl)

theorem tame_unwrap (m : FormatErr → Bytes) (x : Out α) : Tame (unwrap m x : Prog E D α) := by
  cases x
  · exact tame_pure _
  · exact tame_bail _
  · exact tame_panicked

theorem tame_unwrapOpt (m : Bytes) (x : Option α) : Tame (unwrapOpt m x : Prog E D α) := by
  cases x
  · exact tame_bail _
  · exact tame_pure _

theorem tame_readIn {b : InBuf} (h : b.Honest) (hs : b.mem ≠ none) : Tame (readIn b : Prog E D Bytes) := by
  rcases h with h | ⟨x, rest, h1, h2⟩
  · exact absurd h hs
  · unfold readIn
    rw [h1]
    simp only []
    rw [if_pos ⟨by omega, by rw [h2]; simp⟩]
    exact tame_pure _

theorem tame_readStr {p : Option Bytes} (h : HonestStr p) (hs : p ≠ none) (m : Bytes) : Tame (readStr p m : Prog E D Bytes) := by
  rcases h with h | ⟨s, rest, rfl, _⟩
  · exact absurd h hs
  · unfold readStr readCStr
    simp only []
    rw [if_pos (by simp)]
    refine (tame_pure _).bind fun b => ?_
    split
    · exact tame_pure _
    · exact tame_bail _

theorem tame_notNull {p : Option Bytes} {m : String} {f : Unit → Prog E D β} (h : p ≠ none → Tame (f ())) : Tame (notNull p m >>= f) := by
  cases p with
  | none => exact .inr (.inl ⟨.nullPointer (utf8 m), rfl⟩)
  | some b => exact h (by simp)

theorem tame_checkIn {b : InBuf} {x y : String} {f : Unit → Prog E D β} (h : b.mem ≠ none → Tame (f ())) : Tame (checkIn b x y >>= f) := by
  unfold checkIn
  rw [bind_assoc]
  refine tame_notNull fun hb => ?_
  by_cases h0 : b.len = 0
  · rw [if_pos h0]; exact .inr (.inl ⟨.generic (utf8 y), rfl⟩)
  · rw [if_neg h0]; exact h hb

theorem ret_ne {c : Int32} : (Flow.ret c : Flow α) ≠ .ub := by simp
theorem panic_ne : (Flow.panic : Flow α) ≠ .ub := by simp
theorem next_ne {a : α} : (Flow.next a : Flow α) ≠ .ub := by simp

/-- The part of a call in state `s` ends in an orderly way; `m` is the memory at the beginning of the call. -/
def OrderlyPart (m : CMem) (x : Flow α × FState E D) : Prop := x.1 ≠ .ub ∧ ∀ k, (m.slots k).Within (x.2.mem.slots k)

theorem OutBuf.Within.refl (b : OutBuf) : b.Within b := ⟨id, fun m n h => ⟨m, by rw [h], rfl, rfl⟩⟩

/-- The state has the memory of the beginning, but for the buffers of `A`, which have been written within their capacity. -/
def Since (m : CMem) (A : List Slot) (s : FState E D) : Prop :=
  (∀ k, (m.slots k).Within (s.mem.slots k)) ∧ ∀ k ∉ A, s.mem.slots k = m.slots k

theorem since_refl (s : FState E D) : Since s.mem [] s := ⟨fun _ => .refl _, fun _ _ => rfl⟩

theorem orderly_tame {m : CMem} {A : List Slot} {s : FState E D} (hs : Since m A s) {p : Prog E D α} (h : Tame p) {f : α → Prog E D β}
    (hf : ∀ a, OrderlyPart m (f a s)) : OrderlyPart m ((p >>= f) s) := by
  rcases h with ⟨a, rfl⟩ | ⟨e, rfl⟩ | rfl
  · exact hf a
  · exact ⟨ret_ne, hs.1⟩
  · exact ⟨panic_ne, hs.1⟩

theorem orderly_bail {m : CMem} {A : List Slot} {s : FState E D} (hs : Since m A s) (msg : Bytes) : OrderlyPart m ((bail msg : Prog E D α) s) :=
  ⟨ret_ne, hs.1⟩

theorem orderly_pure {m : CMem} {A : List Slot} {s : FState E D} (hs : Since m A s) (a : α) : OrderlyPart m ((pure a : Prog E D α) s) :=
  ⟨next_ne, hs.1⟩

theorem orderly_notNull {m : CMem} {A : List Slot} {s : FState E D} (hs : Since m A s) {p : Option Bytes} {msg : String}
    {f : Unit → Prog E D β} (hf : p ≠ none → OrderlyPart m (f () s)) : OrderlyPart m ((notNull p msg >>= f) s) := by
  cases p with
  | none => exact ⟨ret_ne, hs.1⟩
  | some b => exact hf (by simp)

theorem orderly_checkIn {m : CMem} {A : List Slot} {s : FState E D} (hs : Since m A s) {b : InBuf} {x y : String} {f : Unit → Prog E D β}
    (hf : b.mem ≠ none → OrderlyPart m (f () s)) : OrderlyPart m ((checkIn b x y >>= f) s) := by
  unfold checkIn
  rw [bind_assoc]
  refine orderly_notNull hs fun hb => ?_
  by_cases h0 : b.len = 0
  · rw [if_pos h0]
    exact ⟨ret_ne, hs.1⟩
  · rw [if_neg h0]; exact hf hb

theorem orderly_checkOut {m : CMem} {A : List Slot} {s : FState E D} (hs : Since m A s) {k : Slot} (hk : k ∉ A) (hh : (m.slots k).Honest) {x y : String}
    {f : Unit → Prog E D β} (hf : (m.slots k).mem ≠ none → OrderlyPart m (f () s)) : OrderlyPart m ((checkOut k x y >>= f) s) := by
  have hsk := hs.2 k hk
  rcases hh with h | ⟨b, n, h, h0, h1⟩
  · rw [bind_ret (checkOut_null x y (by rw [hsk]; exact h))]
    exact ⟨ret_ne, hs.1⟩
  · by_cases hn : n = 0
    · subst hn
      rw [bind_ret (checkOut_zero x y (by rw [hsk]; exact h))]
      exact ⟨ret_ne, hs.1⟩
    · rw [bind_next (checkOut_pos x y (by rw [hsk]; exact h) hn)]
      exact hf (by rw [h]; simp)

theorem Since.setSlot {m : CMem} {A : List Slot} {s : FState E D} (hs : Since m A s) (k : Slot) {b : OutBuf} (hb : (m.slots k).Within b) :
    Since m (k :: A) (s.setSlot k b) := by
  constructor
  · intro k'
    by_cases h : k' = k
    · subst h; rw [setSlot_slots]; exact hb
    · rw [setSlot_ne _ _ _ _ h]; exact hs.1 k'
  · intro k' h
    simp only [List.mem_cons, not_or] at h
    rw [setSlot_ne _ _ _ _ h.1]; exact hs.2 k' h.2

theorem Since.mono {m : CMem} {A B : List Slot} {s : FState E D} (hs : Since m A s) (h : ∀ k ∈ A, k ∈ B) : Since m B s :=
  ⟨hs.1, fun k hk => hs.2 k fun ha => hk (h k ha)⟩

theorem within_len {m : Bytes} {n : Int32} (l : Option Int32) : OutBuf.Within ⟨some m, some n⟩ ⟨some m, l⟩ :=
  ⟨fun h => by simp at h, fun m' n' h => by
    simp only [OutBuf.mk.injEq, Option.some.injEq] at h
    obtain ⟨rfl, rfl⟩ := h
    exact ⟨m, rfl, rfl, rfl⟩⟩

theorem within_copy {m b : Bytes} {n : Int32} (l : Option Int32) (h0 : 0 ≤ n.toInt) (hb : (b.length : Int) ≤ n.toInt) (hm : n.toInt ≤ m.length) :
    OutBuf.Within ⟨some m, some n⟩ ⟨some (b ++ m.drop b.length), l⟩ :=
  ⟨fun h => by simp at h, fun m' n' h => by
    simp only [OutBuf.mk.injEq, Option.some.injEq] at h
    obtain ⟨rfl, rfl⟩ := h
    refine ⟨_, rfl, by simp; omega, ?_⟩
    rw [List.drop_append, List.drop_of_length_le (by omega), List.nil_append, List.drop_drop]
    congr 1; omega⟩

theorem orderly_writeOut {t : Target} (ht : 31 ≤ t.bits) {m : CMem} {A : List Slot} {s : FState E D} (hs : Since m A s) {k : Slot} (hk : k ∉ A)
    (hh : (m.slots k).Honest) (hg : (m.slots k).mem ≠ none) {w : Nat → Int32 → Bytes} {b : Bytes} {f : Unit → Prog E D β}
    (hf : ∀ s', Since m (k :: A) s' → OrderlyPart m (f () s')) : OrderlyPart m ((writeOut t k w b >>= f) s) := by
  have hsk := hs.2 k hk
  rcases hh with h | ⟨c, n, h, h0, h1⟩
  · exact absurd h hg
  · have ha := asUsize_nonneg ht h0
    by_cases hb : asUsize t n < b.length
    · rw [bind_ret (writeOut_small (by rw [hsk]; exact h) hb)]
      exact ⟨ret_ne, (hs.setSlot k (by rw [h]; exact within_len _)).1⟩
    · rw [bind_next (writeOut_fits (by rw [hsk]; exact h) (by omega) (by omega))]
      exact hf _ (hs.setSlot k (by rw [h]; exact within_copy _ h0 (by omega) h1))

theorem orderly_writeBlock {t : Target} (ht : 31 ≤ t.bits) {m : CMem} {A : List Slot} {s : FState E D} (hs : Since m A s) (hk : Slot.out ∉ A)
    (hh : (m.slots .out).Honest) (hg : (m.slots .out).mem ≠ none) {w : Nat → Bytes} {b : Bytes} {f : Unit → Prog E D β}
    (hf : ∀ s', Since m (.out :: A) s' → OrderlyPart m (f () s')) : OrderlyPart m ((writeBlock t w b >>= f) s) := by
  have hsk := hs.2 .out hk
  rcases hh with h | ⟨c, n, h, h0, h1⟩
  · exact absurd h hg
  · have ha := asUsize_nonneg ht h0
    by_cases hb : asUsize t n < b.length
    · rw [bind_ret (writeBlock_small (by rw [hsk]; exact h) hb)]
      exact ⟨ret_ne, hs.1⟩
    · rw [bind_next (writeBlock_fits (by rw [hsk]; exact h) (by omega) (by omega))]
      exact hf _ (hs.setSlot .out (by rw [h]; exact within_copy _ h0 (by omega) h1))

theorem orderly_ifExpected {m : CMem} {A : List Slot} {s : FState E D} (hs : Since m A s) {k : Slot} (hk : k ∉ A)
    (hh : (m.slots k).Honest) {p : Prog E D Unit} {f : Unit → Prog E D β}
    (hp : (m.slots k).mem ≠ none → OrderlyPart m ((p >>= f) s)) (hf : OrderlyPart m (f () s)) :
    OrderlyPart m ((ifExpected k p >>= f) s) := by
  have hsk := hs.2 k hk
  unfold ifExpected
  rw [bind_assoc, bind_next (show outPtr k s = (.next (m.slots k).mem, s) by rw [← hsk]; rfl)]
  rcases hh with h | ⟨c, n, h, h0, h1⟩
  · rw [h]; exact hf
  · rw [h]
    simp only [Option.isNone_some, Bool.false_eq_true, if_false]
    rw [bind_assoc, bind_next (show readLen k s = (.next n, s) by unfold readLen; rw [hsk, h])]
    split
    · exact hp (by rw [h]; simp)
    · exact hf

theorem orderly_writeLen {m : CMem} {A : List Slot} {s : FState E D} (hs : Since m A s) {k : Slot} (hk : k ∉ A)
    (hh : (m.slots k).Honest) (hg : (m.slots k).mem ≠ none) {x : Int32} {f : Unit → Prog E D β}
    (hf : ∀ s', Since m (k :: A) s' → OrderlyPart m (f () s')) : OrderlyPart m ((writeLen k x >>= f) s) := by
  have hsk := hs.2 k hk
  rcases hh with h | ⟨c, n, h, h0, h1⟩
  · exact absurd h hg
  · rw [bind_next (show writeLen k x s = (.next (), s.setSlot k ⟨some c, some x⟩) by unfold writeLen; rw [hsk, h])]
    exact hf _ (hs.setSlot k (by rw [h]; exact within_len _))

theorem orderly_next {m : CMem} {s : FState E D} {p : Prog E D α} {a : α} (h : p s = (.next a, s)) {f : α → Prog E D β}
    (hf : OrderlyPart m (f a s)) : OrderlyPart m ((p >>= f) s) := by
  rw [bind_next h]; exact hf

end

end Abe

import Verif.Spec.Ffi
import Verif.Proofs.Basic

set_option linter.unusedSectionVars false

/-!
# Lemmas about the C interface
-/

namespace Abe
namespace Prog
variable {E D α β γ : Type}

theorem bind_def (x : Prog E D α) (f : α → Prog E D β) : (x >>= f) = Prog.bind x f := rfl
theorem pure_def (a : α) : (pure a : Prog E D α) = fun s => (.next a, s) := rfl

theorem bind_next {x : Prog E D α} {f : α → Prog E D β} {s s' : FState E D} {a : α} (h : x s = (.next a, s')) :
    (x >>= f) s = f a s' := by simp only [bind_def, Prog.bind, h]
theorem bind_ret {x : Prog E D α} {f : α → Prog E D β} {s s' : FState E D} {c : Int32} (h : x s = (.ret c, s')) :
    (x >>= f) s = (.ret c, s') := by simp only [bind_def, Prog.bind, h]
theorem bind_panicked {x : Prog E D α} {f : α → Prog E D β} {s s' : FState E D} (h : x s = (.panic, s')) :
    (x >>= f) s = (.panic, s') := by simp only [bind_def, Prog.bind, h]
theorem bind_ub {x : Prog E D α} {f : α → Prog E D β} {s s' : FState E D} (h : x s = (.ub, s')) :
    (x >>= f) s = (.ub, s') := by simp only [bind_def, Prog.bind, h]

instance : LawfulMonad (Prog E D) := LawfulMonad.mk'
  (id_map := by
    intro α x
    funext s
    show (match x s with | (.next a, s') => _ | (.ret c, s') => _ | (.panic, s') => _ | (.ub, s') => _) = _
    rcases x s with ⟨_ | _ | _ | _, _⟩ <;> rfl)
  (pure_bind := fun _ _ => rfl)
  (bind_assoc := by
    intro α β γ x f g
    funext s
    simp only [bind_def, Prog.bind]
    rcases x s with ⟨_ | _ | _ | _, _⟩ <;> rfl)

/-- A program whose outcome does not depend on the state, which it leaves unchanged but for the last error. -/
def Const (p : Prog E D α) : Prop :=
  (∃ a, p = pure a) ∨ (∃ e, p = fun s => (.ret 1, { s with err := some e })) ∨ p = panicked ∨ p = undefined

theorem const_pure (a : α) : Const (pure a : Prog E D α) := .inl ⟨a, rfl⟩
theorem const_bail (m : Bytes) : Const (bail m : Prog E D α) := .inr (.inl ⟨.generic m, rfl⟩)
theorem const_panicked : Const (panicked : Prog E D α) := .inr (.inr (.inl rfl))
theorem const_undefined : Const (undefined : Prog E D α) := .inr (.inr (.inr rfl))

theorem Const.bind {p : Prog E D α} {f : α → Prog E D β} (hp : Const p) (hf : ∀ a, Const (f a)) : Const (p >>= f) := by
  rcases hp with ⟨a, rfl⟩ | ⟨e, rfl⟩ | rfl | rfl
  · exact hf a
  · exact .inr (.inl ⟨e, rfl⟩)
  · exact const_panicked
  · exact const_undefined

theorem const_notNull (p : Option Bytes) (m : String) : Const (notNull p m : Prog E D Unit) := by
  unfold notNull
  split
  · exact .inr (.inl ⟨.nullPointer (utf8 m), rfl⟩)
  · exact const_pure _

theorem const_unwrap (m : FormatErr → Bytes) (x : Out α) : Const (unwrap m x : Prog E D α) := by
  cases x
  · exact const_pure _
  · exact const_bail _
  · exact const_panicked

theorem const_unwrapOpt (m : Bytes) (x : Option α) : Const (unwrapOpt m x : Prog E D α) := by
  cases x
  · exact const_bail _
  · exact const_pure _

theorem const_readIn (b : InBuf) : Const (readIn b : Prog E D Bytes) := by
  unfold readIn
  split
  · split
    · exact const_pure _
    · exact const_undefined
  · exact const_undefined

theorem const_readCStr (p : Option Bytes) : Const (readCStr p : Prog E D Bytes) := by
  unfold readCStr
  split
  · split
    · exact const_pure _
    · exact const_undefined
  · exact const_undefined

theorem const_readStr (p : Option Bytes) (m : Bytes) : Const (readStr p m : Prog E D Bytes) := by
  unfold readStr
  refine (const_readCStr p).bind fun b => ?_
  split
  · exact const_pure _
  · exact const_bail _

theorem const_checkIn (b : InBuf) (m m' : String) : Const (checkIn b m m' : Prog E D Unit) := by
  unfold checkIn
  refine (const_notNull _ _).bind fun _ => ?_
  split
  · exact const_bail _
  · exact const_pure _

/-- A program which leaves the registries unchanged. -/
def Keeps (p : Prog E D α) : Prop := ∀ s, (p s).2.enc = s.enc ∧ (p s).2.dec = s.dec

theorem Const.keeps {p : Prog E D α} (h : Const p) : Keeps p := by
  intro s
  rcases h with ⟨a, rfl⟩ | ⟨e, rfl⟩ | rfl | rfl <;> exact ⟨rfl, rfl⟩

theorem Keeps.bind {p : Prog E D α} {f : α → Prog E D β} (hp : Keeps p) (hf : ∀ a, Keeps (f a)) : Keeps (p >>= f) := by
  intro s
  have h := hp s
  simp only [bind_def, Prog.bind]
  rcases hx : p s with ⟨a | _ | _ | _, s'⟩ <;> rw [hx] at h
  · exact ⟨(hf a s').1.trans h.1, (hf a s').2.trans h.2⟩
  all_goals exact h

theorem keeps_readLen (k : Slot) : Keeps (readLen k : Prog E D Int32) := by
  intro s
  unfold readLen
  split <;> exact ⟨rfl, rfl⟩

theorem keeps_outPtr (k : Slot) : Keeps (outPtr k : Prog E D _) := fun _ => ⟨rfl, rfl⟩

theorem keeps_writeLen (k : Slot) (n : Int32) : Keeps (writeLen k n : Prog E D Unit) := by
  intro s
  unfold writeLen
  split <;> exact ⟨rfl, rfl⟩

theorem keeps_copy (k : Slot) (b : Bytes) : Keeps (copy k b : Prog E D Unit) := by
  intro s
  unfold copy
  split
  · split <;> exact ⟨rfl, rfl⟩
  · exact ⟨rfl, rfl⟩

theorem keeps_ret (c : Int32) : Keeps (ret c : Prog E D α) := fun _ => ⟨rfl, rfl⟩
theorem keeps_pure (a : α) : Keeps (pure a : Prog E D α) := fun _ => ⟨rfl, rfl⟩
theorem keeps_setLastError (e : FfiError) : Keeps (setLastError e : Prog E D Unit) := fun _ => ⟨rfl, rfl⟩

theorem keeps_ite {c : Prop} [Decidable c] {p q : Prog E D α} (hp : Keeps p) (hq : Keeps q) : Keeps (if c then p else q) := by
  split
  · exact hp
  · exact hq

theorem keeps_writeOut (t : Target) (k : Slot) (w : Nat → Int32 → Bytes) (b : Bytes) : Keeps (writeOut t k w b : Prog E D Unit) := by
  unfold writeOut
  exact (keeps_readLen k).bind fun _ => (keeps_writeLen k _).bind fun _ => keeps_ite (const_bail _).keeps (keeps_copy _ _)

theorem keeps_writeBlock (t : Target) (w : Nat → Bytes) (b : Bytes) : Keeps (writeBlock t w b : Prog E D Unit) := by
  unfold writeBlock
  exact (keeps_readLen _).bind fun _ => keeps_ite (const_bail _).keeps ((keeps_copy _ _).bind fun _ => keeps_writeLen _ _)

theorem keeps_checkOut (k : Slot) (m m' : String) : Keeps (checkOut k m m' : Prog E D Unit) := by
  unfold checkOut
  exact (keeps_outPtr k).bind fun _ => (const_notNull _ _).keeps.bind fun _ => (keeps_readLen k).bind fun _ =>
    keeps_ite (const_bail _).keeps (keeps_pure _)

theorem keeps_ifExpected (k : Slot) {p : Prog E D Unit} (hp : Keeps p) : Keeps (ifExpected k p) := by
  unfold ifExpected
  exact (keeps_outPtr k).bind fun _ => keeps_ite (keeps_pure _) ((keeps_readLen k).bind fun _ => keeps_ite hp (keeps_pure _))

theorem run_enc (p : Prog E D Int32) (s : FState E D) : (p.run s).2 = (p s).2 := by
  unfold run finish
  split <;> rfl

theorem Keeps.run {p : Prog E D Int32} (h : Keeps p) (s : FState E D) : (p.run s).2.enc = s.enc ∧ (p.run s).2.dec = s.dec := by
  rw [run_enc]
  exact h s

end Prog

open Prog

/-! ## Integers -/

theorem asUsize_nonneg {t : Target} (ht : 31 ≤ t.bits) {n : Int32} (hn : 0 ≤ n.toInt) : (asUsize t n : Int) = n.toInt := by
  unfold asUsize
  have h1 : n.toInt < 2 ^ 31 := n.toInt_lt
  have h2 : (2 : Int) ^ 31 ≤ (t.modulus : Int) := by
    unfold Target.modulus
    exact_mod_cast Nat.pow_le_pow_right (by decide) ht
  rw [Int.emod_eq_of_lt hn (by omega)]
  omega

theorem asUsize_neg {t : Target} (ht : 31 ≤ t.bits) {n : Int32} (hn : n.toInt < 0) : t.modulus ≤ asUsize t n + 2 ^ 31 := by
  unfold asUsize
  have h1 : -2 ^ 31 ≤ n.toInt := n.le_toInt
  have h2 : (2 : Int) ^ 31 ≤ (t.modulus : Int) := by
    unfold Target.modulus
    exact_mod_cast Nat.pow_le_pow_right (by decide) ht
  have h3 : n.toInt % (t.modulus : Int) = n.toInt + t.modulus := by
    rw [← Int.add_emod_right, Int.emod_eq_of_lt (by omega) (by omega)]
  omega

theorem asCInt_toInt {l : Nat} (h : l < 2 ^ 31) : (asCInt l).toInt = l := Int32.toInt_ofNat_of_lt h

theorem reportsLen_asCInt (l : Nat) : ReportsLen (asCInt l) l := asCInt_toInt

theorem int32_eq_zero {n : Int32} : n = 0 ↔ n.toInt = 0 := by
  rw [← Int32.toInt_inj]
  rfl

/-! ## Buffers -/

section
variable {E D : Type}

theorem setSlot_slots (s : FState E D) (k : Slot) (b : OutBuf) : (s.setSlot k b).mem.slots k = b := by
  simp [FState.setSlot]

theorem setSlot_ne (s : FState E D) (k k' : Slot) (b : OutBuf) (h : k' ≠ k) : (s.setSlot k b).mem.slots k' = s.mem.slots k' := by
  simp [FState.setSlot, h]

theorem setSlot_setSlot (s : FState E D) (k : Slot) (b b' : OutBuf) : (s.setSlot k b).setSlot k b' = s.setSlot k b' := by
  simp only [FState.setSlot, FState.mk.injEq, CMem.mk.injEq, true_and, and_true]
  funext k'
  by_cases h : k' = k <;> simp [h]

theorem onlySlot_setSlot (s : FState E D) (k : Slot) (b : OutBuf) : OnlySlot k s (s.setSlot k b) :=
  ⟨rfl, rfl, rfl, fun k' h => setSlot_ne s k k' b h⟩

theorem checkOut_null {k : Slot} {s : FState E D} (m m' : String) (h : (s.mem.slots k).mem = none) :
    checkOut k m m' s = (.ret 1, { s with err := some (.nullPointer (utf8 m)) }) := by
  simp [checkOut, bind_def, Prog.bind, outPtr, notNull, h, setLastError, ret]

theorem checkOut_zero {k : Slot} {s : FState E D} {m : Bytes} (x y : String) (h : s.mem.slots k = ⟨some m, some 0⟩) :
    checkOut k x y s = (.ret 1, { s with err := some (.generic (utf8 y)) }) := by
  simp [checkOut, bind_def, Prog.bind, outPtr, notNull, h, setLastError, ret, readLen, bail, pure_def]

theorem checkOut_pos {k : Slot} {s : FState E D} {m : Bytes} {n : Int32} (x y : String) (h : s.mem.slots k = ⟨some m, some n⟩)
    (hn : n ≠ 0) : checkOut k x y s = (.next (), s) := by
  simp [checkOut, bind_def, Prog.bind, outPtr, notNull, h, readLen, pure_def, hn]

theorem checkOut_noLen {k : Slot} {s : FState E D} {m : Bytes} (x y : String) (h : s.mem.slots k = ⟨some m, none⟩) :
    checkOut k x y s = (.ub, s) := by
  simp [checkOut, bind_def, Prog.bind, outPtr, notNull, h, readLen, pure_def]

/-- The outcomes of the check of an output buffer. -/
theorem checkOut_cases (k : Slot) (x y : String) (s : FState E D) :
    (∃ e, checkOut k x y s = (.ret 1, { s with err := some e })) ∨ (checkOut k x y s = (.ub, s)) ∨
    (∃ m n, s.mem.slots k = ⟨some m, some n⟩ ∧ n ≠ 0 ∧ checkOut k x y s = (.next (), s)) := by
  rcases h : s.mem.slots k with ⟨_ | m, _ | n⟩
  · exact .inl ⟨_, checkOut_null x y (by rw [h])⟩
  · exact .inl ⟨_, checkOut_null x y (by rw [h])⟩
  · exact .inr (.inl (checkOut_noLen x y h))
  · by_cases hn : n = 0
    · subst hn
      exact .inl ⟨_, checkOut_zero x y h⟩
    · exact .inr (.inr ⟨m, n, rfl, hn, checkOut_pos x y h hn⟩)

theorem writeOut_small {t : Target} {k : Slot} {w : Nat → Int32 → Bytes} {b : Bytes} {s : FState E D} {m : Bytes} {n : Int32}
    (h : s.mem.slots k = ⟨some m, some n⟩) (hs : asUsize t n < b.length) :
    writeOut t k w b s = (.ret 1, { s.setSlot k ⟨some m, some (asCInt b.length)⟩ with err := some (.generic (w b.length n)) }) := by
  simp [writeOut, bind_def, Prog.bind, readLen, h, writeLen, hs, bail, setLastError, ret]

theorem writeOut_fits {t : Target} {k : Slot} {w : Nat → Int32 → Bytes} {b : Bytes} {s : FState E D} {m : Bytes} {n : Int32}
    (h : s.mem.slots k = ⟨some m, some n⟩) (hs : b.length ≤ asUsize t n) (hm : b.length ≤ m.length) :
    writeOut t k w b s = (.next (), s.setSlot k ⟨some (b ++ m.drop b.length), some (asCInt b.length)⟩) := by
  simp [writeOut, bind_def, Prog.bind, readLen, h, writeLen, Nat.not_lt.2 hs, copy, setSlot_slots, hm, setSlot_setSlot]

theorem writeOut_ub {t : Target} {k : Slot} {w : Nat → Int32 → Bytes} {b : Bytes} {s : FState E D} {m : Bytes} {n : Int32}
    (h : s.mem.slots k = ⟨some m, some n⟩) (hs : b.length ≤ asUsize t n) (hm : m.length < b.length) :
    (writeOut t k w b s).1 = .ub := by
  simp [writeOut, bind_def, Prog.bind, readLen, h, writeLen, Nat.not_lt.2 hs, copy, setSlot_slots, Nat.not_le.2 hm]

theorem writeBlock_small {t : Target} {w : Nat → Bytes} {b : Bytes} {s : FState E D} {m : Bytes} {n : Int32}
    (h : s.mem.slots .out = ⟨some m, some n⟩) (hs : asUsize t n < b.length) :
    writeBlock t w b s = (.ret 1, { s with err := some (.generic (w b.length)) }) := by
  simp [writeBlock, bind_def, Prog.bind, readLen, h, hs, bail, setLastError, ret]

theorem writeBlock_fits {t : Target} {w : Nat → Bytes} {b : Bytes} {s : FState E D} {m : Bytes} {n : Int32}
    (h : s.mem.slots .out = ⟨some m, some n⟩) (hs : b.length ≤ asUsize t n) (hm : b.length ≤ m.length) :
    writeBlock t w b s = (.next (), s.setSlot .out ⟨some (b ++ m.drop b.length), some (asCInt b.length)⟩) := by
  simp [writeBlock, bind_def, Prog.bind, readLen, h, writeLen, Nat.not_lt.2 hs, copy, setSlot_slots, hm, setSlot_setSlot]

theorem writeBlock_ub {t : Target} {w : Nat → Bytes} {b : Bytes} {s : FState E D} {m : Bytes} {n : Int32}
    (h : s.mem.slots .out = ⟨some m, some n⟩) (hs : b.length ≤ asUsize t n) (hm : m.length < b.length) :
    (writeBlock t w b s).1 = .ub := by
  simp [writeBlock, bind_def, Prog.bind, readLen, h, Nat.not_lt.2 hs, copy, Nat.not_le.2 hm]

/-- A function returning bytes `b` in the usual way. -/
theorem delivers_of_pure (t : Target) (ht : 31 ≤ t.bits) (k : Slot) (x y : String) (w : Nat → Int32 → Bytes) (b : Bytes) :
    Delivers t (checkOut k x y >>= fun _ => writeOut t k w b >>= fun _ => pure 0 : Prog E D Int32) k b where
  zero := by
    intro s m h
    exact ⟨.generic (utf8 y), by rw [Prog.run, bind_ret (checkOut_zero x y h)]; rfl⟩
  small := by
    intro s m n h h0 hs
    have hn : n ≠ 0 := fun e => by rw [int32_eq_zero.1 e] at h0; omega
    have ha := asUsize_nonneg ht h0.le
    refine ⟨{ s.setSlot k ⟨some m, some (asCInt b.length)⟩ with err := some (.generic (w b.length n)) }, asCInt b.length, by
      rw [Prog.run, bind_next (checkOut_pos x y h hn), bind_ret (writeOut_small (w := w) h (show asUsize t n < b.length by omega))]
      rfl, rfl, onlySlot_setSlot s _ _, setSlot_slots s _ _, reportsLen_asCInt _⟩
  fits := by
    intro s m n h h0 hs hm
    have hn : n ≠ 0 := fun e => by rw [int32_eq_zero.1 e] at h0; omega
    have ha := asUsize_nonneg ht h0.le
    refine ⟨s.setSlot k ⟨some (b ++ m.drop b.length), some (asCInt b.length)⟩, asCInt b.length, by
        rw [Prog.run, bind_next (checkOut_pos x y h hn), bind_next (writeOut_fits (w := w) h (show b.length ≤ asUsize t n by omega) hm)]
        rfl, rfl, onlySlot_setSlot s _ _, setSlot_slots s _ _, reportsLen_asCInt _⟩
  negative := by
    intro s m n h h0 hb
    have hn : n ≠ 0 := fun e => by rw [int32_eq_zero.1 e] at h0; omega
    have ha := asUsize_neg ht h0
    constructor
    · intro hm
      refine ⟨s.setSlot k ⟨some (b ++ m.drop b.length), some (asCInt b.length)⟩, asCInt b.length, by
        rw [Prog.run, bind_next (checkOut_pos x y h hn), bind_next (writeOut_fits (w := w) h (show b.length ≤ asUsize t n by omega) hm)]
        rfl, onlySlot_setSlot s _ _, setSlot_slots s _ _, reportsLen_asCInt _⟩
    · intro hm
      have h1 := writeOut_ub (w := w) h (show b.length ≤ asUsize t n by omega) hm
      rw [Prog.run, bind_next (checkOut_pos x y h hn), bind_ub (s' := (writeOut t k w b s).2) (by rw [← h1])]
      rfl

/-- A block function returning bytes `b`. -/
theorem deliversSilently_of_pure (t : Target) (ht : 31 ≤ t.bits) (x y : String) (w : Nat → Bytes)
    (hw : ∀ n, firstNumber (FfiError.generic (w n)).text = some n) (b : Bytes) :
    DeliversSilently t (checkOut .out x y >>= fun _ => writeBlock t w b >>= fun _ => pure 0 : Prog E D Int32) .out b where
  zero := by
    intro s m h
    exact ⟨.generic (utf8 y), by rw [Prog.run, bind_ret (checkOut_zero x y h)]; rfl⟩
  small := by
    intro s m n h h0 hs
    have hn : n ≠ 0 := fun e => by rw [int32_eq_zero.1 e] at h0; omega
    have ha := asUsize_nonneg ht h0.le
    have hr : (checkOut .out x y >>= fun _ => writeBlock t w b >>= fun _ => pure 0 : Prog E D Int32).run s =
        (.ret 1, { s with err := some (.generic (w b.length)) }) := by
      rw [Prog.run, bind_next (checkOut_pos x y h hn), bind_ret (writeBlock_small (w := w) h (show asUsize t n < b.length by omega))]
      rfl
    exact ⟨⟨_, hr⟩, _, by rw [hr], hw _⟩
  fits := by
    intro s m n h h0 hs hm
    have hn : n ≠ 0 := fun e => by rw [int32_eq_zero.1 e] at h0; omega
    have ha := asUsize_nonneg ht h0.le
    refine ⟨s.setSlot .out ⟨some (b ++ m.drop b.length), some (asCInt b.length)⟩, asCInt b.length, by
        rw [Prog.run, bind_next (checkOut_pos x y h hn), bind_next (writeBlock_fits (w := w) h (show b.length ≤ asUsize t n by omega) hm)]
        rfl, rfl, onlySlot_setSlot s _ _, setSlot_slots s _ _, reportsLen_asCInt _⟩
  negative := by
    intro s m n h h0 hb
    have hn : n ≠ 0 := fun e => by rw [int32_eq_zero.1 e] at h0; omega
    have ha := asUsize_neg ht h0
    constructor
    · intro hm
      refine ⟨s.setSlot .out ⟨some (b ++ m.drop b.length), some (asCInt b.length)⟩, asCInt b.length, by
        rw [Prog.run, bind_next (checkOut_pos x y h hn), bind_next (writeBlock_fits (w := w) h (show b.length ≤ asUsize t n by omega) hm)]
        rfl, onlySlot_setSlot s _ _, setSlot_slots s _ _, reportsLen_asCInt _⟩
    · intro hm
      have h1 := writeBlock_ub (w := w) h (show b.length ≤ asUsize t n by omega) hm
      rw [Prog.run, bind_next (checkOut_pos x y h hn), bind_ub (s' := (writeBlock t w b s).2) (by rw [← h1])]
      rfl

/-- A program stopping before any output. -/
theorem neverWrites_of_stop {k : Slot} {x y : String} {α : Type} {M : Prog E D α} {f : α → Prog E D Int32}
    (hM : (∃ e, M = fun s => (.ret 1, { s with err := some e })) ∨ M = panicked ∨ M = undefined) :
    NeverWrites (checkOut k x y >>= fun _ => M >>= f) := by
  intro s
  simp only [Prog.run, bind_def, Prog.bind]
  rcases checkOut_cases k x y s with ⟨e, h⟩ | h | ⟨_, _, _, _, h⟩ <;> rw [h]
  · exact ⟨by simp [Prog.finish], rfl⟩
  · exact ⟨by simp [Prog.finish], rfl⟩
  · rcases hM with ⟨e, rfl⟩ | rfl | rfl <;> exact ⟨by simp [Prog.finish, panicked, undefined], rfl⟩

end

end Abe

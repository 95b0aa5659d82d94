import Verif.Props.FfiFlow
import Verif.Proofs.FfiErrors

set_option linter.unusedSectionVars false

/-!
# The last error of the C interface: C48
-/

namespace Abe
open Prog

section
variable {K G1 G2 G3 Gt Key Nonce : Type} [Field K] [DecidableEq K] {lib : FfiLib K G1 G2 G3 Gt Key Nonce}

/-- **C48**: every function returning 0 or an error code, but those about errors, records an error exactly when it returns 1. -/
theorem C48_reports (c : FCall K Gt Nonce) (h1 : ∀ m, c ≠ .setError m) (h2 : c ≠ .getLastError) (h3 : ∀ e, c ≠ .getEncryptedHeaderSize e)
    (h4 : c ≠ .symmetricEncryptionOverhead) : ReportsErrors (c.prog lib) := by
  refine (rep_prog c ?_).reportsErrors
  cases c <;> first | rfl | exact absurd rfl (h1 _) | exact absurd rfl h2 | exact absurd rfl (h3 _) | exact absurd rfl h4

/-- **C48**: `set_error` records the message of its caller; a null message or a message which is not a string is an error. -/
theorem C48_set_error {E D : Type} (s : FState E D) :
    (∀ p b : Bytes, 0 ∉ b → validUtf8 b = true → (∃ r, p = b ++ 0 :: r) →
      (hSetError (some p)).run s = (.ret 0, { s with err := some (.generic b) })) ∧
    (∀ p b : Bytes, 0 ∉ b → validUtf8 b = false → (∃ r, p = b ++ 0 :: r) → ∃ e, (hSetError (some p)).run s = (.ret 1, { s with err := some e })) ∧
    (∃ e, (hSetError none).run s = (.ret 1, { s with err := some e })) := by
  have key : ∀ p b : Bytes, 0 ∉ b → (∃ r, p = b ++ 0 :: r) → (readCStr (some p) : Prog E D Bytes) = pure b := by
    rintro _ b hb ⟨r, rfl⟩
    simp only [readCStr]
    rw [if_pos (by simp), List.takeWhile_append_of_pos (by
      intro x hx
      simp only [decide_eq_true_eq]
      rintro rfl
      exact hb hx)]
    simp
  refine ⟨fun p b hb hv hp => ?_, fun p b hb hv hp => ?_, ⟨_, rfl⟩⟩
  · simp only [hSetError, readStr, key p b hb hp, notNull, pure_bind, hv]
    rfl
  · refine ⟨.generic (utf8 "sse_client_update: invalid error message"), ?_⟩
    simp only [hSetError, readStr, key p b hb hp, notNull, pure_bind, hv]
    rfl

/-- **C48**: in a history, a call which returns 1 records an error, which does not depend on the errors recorded before. -/
theorem C48_failure {s s1 : Sys (EncryptionCache G2 Gt) (DecryptionKey K G1 G3)} {τ : Thread} {c : FCall K Gt Nonce} {m m1 : CMem}
    (h2 : c ≠ .getLastError) (h3 : ∀ e, c ≠ .getEncryptedHeaderSize e) (h4 : c ≠ .symmetricEncryptionOverhead)
    (h : fstep lib s τ (.call c m) = (s1, some (.ret 1, m1))) :
    ∃ e, s1.err τ = some e ∧ ∀ f, (fstep lib { s with err := f } τ (.call c m)).1.err τ = some e := by
  have hi : s.Idle τ := by
    by_contra hi
    rw [fstep_busy s τ c m hi] at h
    cases h
  have hi' : ∀ f, ({ s with err := f } : Sys (EncryptionCache G2 Gt) (DecryptionKey K G1 G3)).Idle τ := fun _ => hi
  have start : ∀ {α : Type} (prep : Foreign K G1 G2 G3 Gt α) draw, Const prep → startCreation s τ m prep draw = (s1, some (.ret 1, m1)) →
      ∃ e, s1.err τ = some e ∧ ∀ f, (startCreation { s with err := f } τ m prep draw).1.err τ = some e := by
    intro α prep draw hp hh
    rcases hp with ⟨a, rfl⟩ | ⟨e, rfl⟩ | rfl | rfl
    · cases hh
    · refine ⟨e, ?_, fun f => upd_self _ _ _⟩
      have : s1 = _ := (congrArg Prod.fst hh).symm
      rw [this]
      exact upd_self _ _ _
    · cases hh
    · cases hh
  by_cases hce : ∃ a, c = .createEncryptionCache a
  · obtain ⟨a, rfl⟩ := hce
    rw [fstep_createEnc _ _ _ _ hi] at h
    obtain ⟨e, he, hf⟩ := start _ _ (const_prepareEncryptionCache _) h
    exact ⟨e, he, fun f => by rw [fstep_createEnc _ _ _ _ (hi' f)]; exact hf f⟩
  by_cases hcd : ∃ a, c = .createDecryptionCache a
  · obtain ⟨a, rfl⟩ := hcd
    rw [fstep_createDec _ _ _ _ hi] at h
    obtain ⟨e, he, hf⟩ := start _ _ (const_prepareDecryptionCache _) h
    exact ⟨e, he, fun f => by rw [fstep_createDec _ _ _ _ (hi' f)]; exact hf f⟩
  have hce' : ∀ a, c ≠ .createEncryptionCache a := fun a ha => hce ⟨a, ha⟩
  have hcd' : ∀ a, c ≠ .createDecryptionCache a := fun a ha => hcd ⟨a, ha⟩
  rw [fstep_other s τ c m hi hce' hcd'] at h
  obtain ⟨hs1, hr⟩ := Prod.mk.inj h
  have hr1 : ((c.prog lib).run (s.view τ m)).1 = .ret 1 := (Prod.mk.inj (Option.some.inj hr)).1
  suffices hh : ∃ e, ∀ x, ((c.prog lib).run { s.view τ m with err := x }).2.err = some e by
    obtain ⟨e, he⟩ := hh
    refine ⟨e, ?_, fun f => ?_⟩
    · rw [← hs1]
      exact (upd_self _ _ _).trans (he (s.err τ))
    · rw [fstep_other _ τ c m (hi' f) hce' hcd']
      exact (upd_self _ _ _).trans (he (f τ))
  by_cases hse : ∃ p, c = .setError p
  · obtain ⟨p, rfl⟩ := hse
    simp only [FCall.prog, hSetError] at hr1 ⊢
    rcases const_notNull (E := EncryptionCache G2 Gt) (D := DecryptionKey K G1 G3) p "error message" with ⟨a, h1⟩ | ⟨e, h1⟩ | h1 | h1
    · rw [h1, pure_bind] at hr1 ⊢
      rcases const_readStr (E := EncryptionCache G2 Gt) (D := DecryptionKey K G1 G3) p (utf8 "sse_client_update: invalid error message") with
        ⟨a, h1⟩ | ⟨e, h1⟩ | h1 | h1
      · rw [h1] at hr1; cases hr1
      · rw [h1]; exact ⟨e, fun _ => rfl⟩
      · rw [h1] at hr1; cases hr1
      · rw [h1] at hr1; cases hr1
    · rw [h1]; exact ⟨e, fun _ => rfl⟩
    · rw [h1] at hr1; cases hr1
    · rw [h1] at hr1; cases hr1
  have hrep := C48_reports (lib := lib) c (fun p hp => hse ⟨p, hp⟩) h2 h3 h4 (s.view τ m)
  rcases hrep with ⟨s', h⟩ | ⟨s', e', h⟩ | ⟨s', h⟩ | ⟨s', h⟩
  · have := h (s.err τ)
    have e0 : ({ s.view τ m with err := s.err τ } : FState (EncryptionCache G2 Gt) (DecryptionKey K G1 G3)) = s.view τ m := rfl
    rw [e0] at this
    rw [this] at hr1
    cases hr1
  · exact ⟨e', fun x => by rw [h x]⟩
  · have := h (s.err τ)
    have e0 : ({ s.view τ m with err := s.err τ } : FState (EncryptionCache G2 Gt) (DecryptionKey K G1 G3)) = s.view τ m := rfl
    rw [e0] at this
    rw [this] at hr1
    cases hr1
  · have := h (s.err τ)
    have e0 : ({ s.view τ m with err := s.err τ } : FState (EncryptionCache G2 Gt) (DecryptionKey K G1 G3)) = s.view τ m := rfl
    rw [e0] at this
    rw [this] at hr1
    cases hr1

theorem err_startCreation {E D α : Type} (s : Sys E D) {τ τ' : Thread} (hne : τ' ≠ τ) (m : CMem) (prep : Prog E D α) (draw : Sys E D → α → Sys E D)
    (hd : ∀ s c, (draw s c).err = s.err) : (startCreation s τ' m prep draw).1.err τ = s.err τ := by
  unfold startCreation
  split
  · simp only [hd]; exact upd_ne _ _ hne.symm
  all_goals exact upd_ne _ _ hne.symm

/-- The step of a thread does not change the last error of another one. -/
theorem err_fstep (s : Sys (EncryptionCache G2 Gt) (DecryptionKey K G1 G3)) {τ τ' : Thread} (hne : τ' ≠ τ) (ev : FEvent K Gt Nonce) :
    (fstep lib s τ' ev).1.err τ = s.err τ := by
  cases ev with
  | call c m =>
    by_cases hi : s.Idle τ'
    · by_cases hce : ∃ a, c = .createEncryptionCache a
      · obtain ⟨a, rfl⟩ := hce
        rw [fstep_createEnc _ _ _ _ hi]
        exact err_startCreation s hne m _ _ fun _ _ => rfl
      by_cases hcd : ∃ a, c = .createDecryptionCache a
      · obtain ⟨a, rfl⟩ := hcd
        rw [fstep_createDec _ _ _ _ hi]
        exact err_startCreation s hne m _ _ fun _ _ => rfl
      rw [fstep_other s τ' c m hi (fun a ha => hce ⟨a, ha⟩) (fun a ha => hcd ⟨a, ha⟩)]
      exact upd_ne _ _ hne.symm
    · rw [fstep_busy s τ' c m hi]
  | finish =>
    simp only [fstep]
    cases s.pendEnc τ' with
    | some p => exact upd_ne _ _ hne.symm
    | none =>
      cases s.pendDec τ' with
      | some p => exact upd_ne _ _ hne.symm
      | none => rfl

theorem pend_startCreation {E D α : Type} (s : Sys E D) {τ τ' : Thread} (m : CMem) (prep : Prog E D α)
    (draw : Sys E D → α → Sys E D) (hd : ∀ s c, (draw s c).pendEnc τ = s.pendEnc τ ∧ (draw s c).pendDec τ = s.pendDec τ) :
    (startCreation s τ' m prep draw).1.pendEnc τ = s.pendEnc τ ∧ (startCreation s τ' m prep draw).1.pendDec τ = s.pendDec τ := by
  unfold startCreation
  split
  · exact hd _ _
  all_goals exact ⟨rfl, rfl⟩

/-- The step of a thread leaves other threads idle. -/
theorem pend_fstep (s : Sys (EncryptionCache G2 Gt) (DecryptionKey K G1 G3)) {τ τ' : Thread} (hne : τ' ≠ τ) (ev : FEvent K Gt Nonce)
    (hi : s.Idle τ) : (fstep lib s τ' ev).1.Idle τ := by
  suffices h : (fstep lib s τ' ev).1.pendEnc τ = s.pendEnc τ ∧ (fstep lib s τ' ev).1.pendDec τ = s.pendDec τ from
    ⟨h.1.trans hi.1, h.2.trans hi.2⟩
  cases ev with
  | call c m =>
    by_cases hi : s.Idle τ'
    · by_cases hce : ∃ a, c = .createEncryptionCache a
      · obtain ⟨a, rfl⟩ := hce
        rw [fstep_createEnc _ _ _ _ hi]
        exact pend_startCreation s m _ _ fun _ _ => ⟨upd_ne _ _ hne.symm, rfl⟩
      by_cases hcd : ∃ a, c = .createDecryptionCache a
      · obtain ⟨a, rfl⟩ := hcd
        rw [fstep_createDec _ _ _ _ hi]
        exact pend_startCreation s m _ _ fun _ _ => ⟨rfl, upd_ne _ _ hne.symm⟩
      rw [fstep_other s τ' c m hi (fun a ha => hce ⟨a, ha⟩) (fun a ha => hcd ⟨a, ha⟩)]
      exact ⟨rfl, rfl⟩
    · rw [fstep_busy s τ' c m hi]
      exact ⟨rfl, rfl⟩
  | finish =>
    simp only [fstep]
    cases s.pendEnc τ' with
    | some p => exact ⟨upd_ne _ _ hne.symm, rfl⟩
    | none =>
      cases s.pendDec τ' with
      | some p => exact ⟨rfl, upd_ne _ _ hne.symm⟩
      | none => exact ⟨rfl, rfl⟩

theorem pend_frun {τ : Thread} {L : List (Thread × FEvent K Gt Nonce)} (hL : ∀ x ∈ L, x.1 ≠ τ)
    (s : Sys (EncryptionCache G2 Gt) (DecryptionKey K G1 G3)) (hi : s.Idle τ) : (frun lib s L).Idle τ := by
  induction L generalizing s with
  | nil => exact hi
  | cons x L ih =>
    rw [List.forall_mem_cons] at hL
    exact ih hL.2 _ (pend_fstep s hL.1 x.2 hi)

/-- **C48**: the work of other threads does not change the last error of a thread. -/
theorem C48_kept {τ : Thread} {L : List (Thread × FEvent K Gt Nonce)} (hL : ∀ x ∈ L, x.1 ≠ τ)
    (s : Sys (EncryptionCache G2 Gt) (DecryptionKey K G1 G3)) : (frun lib s L).err τ = s.err τ := by
  induction L generalizing s with
  | nil => rfl
  | cons x L ih =>
    rw [List.forall_mem_cons] at hL
    exact (ih hL.2 _).trans (err_fstep s hL.1 x.2)

/-- **C48**: the replies to a thread, and the registries, do not depend on the last errors of the other threads. -/
theorem C48_unseen {s : Sys (EncryptionCache G2 Gt) (DecryptionKey K G1 G3)} {τ : Thread} {f : Thread → Option FfiError} (hf : f τ = s.err τ)
    (ev : FEvent K Gt Nonce) :
    (fstep lib { s with err := f } τ ev).2 = (fstep lib s τ ev).2 ∧
    (fstep lib { s with err := f } τ ev).1.enc = (fstep lib s τ ev).1.enc ∧
    (fstep lib { s with err := f } τ ev).1.dec = (fstep lib s τ ev).1.dec ∧
    (fstep lib { s with err := f } τ ev).1.err τ = (fstep lib s τ ev).1.err τ := by
  have hv : ∀ m, ({ s with err := f } : Sys (EncryptionCache G2 Gt) (DecryptionKey K G1 G3)).view τ m = s.view τ m := fun m => by
    simp only [Sys.view, hf]
  have hb : ∀ x, (({ s with err := f } : Sys (EncryptionCache G2 Gt) (DecryptionKey K G1 G3)).back τ x).err τ = (s.back τ x).err τ := fun x =>
    (upd_self _ _ _).trans (upd_self _ _ _).symm
  cases ev with
  | call c m =>
    by_cases hi : s.Idle τ
    · have hi' : ({ s with err := f } : Sys (EncryptionCache G2 Gt) (DecryptionKey K G1 G3)).Idle τ := hi
      by_cases hce : ∃ a, c = .createEncryptionCache a
      · obtain ⟨a, rfl⟩ := hce
        rw [fstep_createEnc _ _ _ _ hi, fstep_createEnc _ _ _ _ hi']
        unfold startCreation
        rw [hv]
        split <;> exact ⟨rfl, rfl, rfl, hb _⟩
      by_cases hcd : ∃ a, c = .createDecryptionCache a
      · obtain ⟨a, rfl⟩ := hcd
        rw [fstep_createDec _ _ _ _ hi, fstep_createDec _ _ _ _ hi']
        unfold startCreation
        rw [hv]
        split <;> exact ⟨rfl, rfl, rfl, hb _⟩
      rw [fstep_other s τ c m hi (fun a ha => hce ⟨a, ha⟩) (fun a ha => hcd ⟨a, ha⟩),
        fstep_other _ τ c m hi' (fun a ha => hce ⟨a, ha⟩) (fun a ha => hcd ⟨a, ha⟩), hv]
      exact ⟨rfl, rfl, rfl, hb _⟩
    · rw [fstep_busy s τ c m hi, fstep_busy { s with err := f } τ c m hi]
      exact ⟨rfl, rfl, rfl, hf⟩
  | finish =>
    simp only [fstep]
    cases s.pendEnc τ with
    | some p =>
      simp only [Sys.view, hf]
      exact ⟨trivial, rfl, rfl, (upd_self _ _ _).trans (upd_self _ _ _).symm⟩
    | none =>
      cases s.pendDec τ with
      | some p =>
        simp only [Sys.view, hf]
        exact ⟨trivial, rfl, rfl, (upd_self _ _ _).trans (upd_self _ _ _).symm⟩
      | none => exact ⟨rfl, rfl, rfl, hf⟩

theorem getLastError_run {E D : Type} (display : Option FormatErr → Bytes) (s : FState E D) {mem : Bytes} {n : Int32}
    (hm : s.mem.slots .out = ⟨some mem, some n⟩) (h1 : 1 ≤ n.toInt) (h2 : n.toInt ≤ mem.length)
    (h0 : 0 ∉ (s.err.map FfiError.text).getD []) :
    (hGetLastError display).run s = (.ret 0, ({ s with err := none } : FState E D).setSlot .out
      ⟨some (errorBuffer ((s.err.map FfiError.text).getD []) mem n.toInt.toNat),
        some (asCInt (min (n.toInt.toNat - 1) ((s.err.map FfiError.text).getD []).length))⟩) := by
  generalize htext : (s.err.map FfiError.text).getD [] = text at *
  have hlen : (text.take (min (n.toInt.toNat - 1) text.length) ++
      List.replicate (n.toInt.toNat - min (n.toInt.toNat - 1) text.length) (0 : UInt8)).length = n.toInt.toNat := by
    rw [List.length_append, List.length_take, List.length_replicate]
    omega
  have htake : text.take (min (n.toInt.toNat - 1) text.length) = text.take (n.toInt.toNat - 1) := by
    rw [← List.take_take, List.take_length]
  unfold run hGetLastError
  rw [bind_next (x := outPtr .out) (a := some mem) (s' := s) (by simp only [outPtr, hm])]
  rw [if_neg (by simp)]
  rw [bind_next (x := fun s => (.next s, s)) (a := s) (s' := s) rfl]
  rw [if_neg (by rw [hm]; simp)]
  rw [bind_next (x := readLen .out) (a := n) (s' := s) (by simp only [readLen, hm])]
  rw [if_neg (by omega)]
  rw [bind_next (x := takeLastError) (a := s.err) (s' := { s with err := none }) rfl]
  simp only [htext]
  rw [if_neg h0]
  rw [bind_next (x := copy .out _) (a := ()) (s' := ({ s with err := none } : FState E D).setSlot .out
    ⟨some (errorBuffer text mem n.toInt.toNat), some n⟩)
    (by
      simp only [copy, hm]
      rw [if_pos (by rw [hlen]; omega), hlen, htake]
      simp only [errorBuffer, List.length_take])]
  rw [bind_next (x := writeLen .out _) (a := ()) (s' := ({ s with err := none } : FState E D).setSlot .out
    ⟨some (errorBuffer text mem n.toInt.toNat), some (asCInt (min (n.toInt.toNat - 1) text.length))⟩)
    (by
      simp only [writeLen, FState.setSlot, if_pos]
      congr 4
      funext k
      by_cases hk : k = .out <;> simp [hk])]
  rfl

/-- After the end of a call, its thread is idle. -/
theorem idle_of_reply {s s1 : Sys (EncryptionCache G2 Gt) (DecryptionKey K G1 G3)} {τ : Thread} {c : FCall K Gt Nonce} {m : CMem}
    {r : FReply} (h : fstep lib s τ (.call c m) = (s1, some r)) : s1.Idle τ := by
  by_cases hi : s.Idle τ
  · have start : ∀ {α : Type} (prep : Foreign K G1 G2 G3 Gt α) draw, startCreation s τ m prep draw = (s1, some r) → s1.Idle τ := by
      intro α prep draw hh
      unfold startCreation at hh
      split at hh
      · cases hh
      all_goals
        obtain ⟨rfl, _⟩ := Prod.mk.inj hh
        exact hi
    by_cases hce : ∃ a, c = .createEncryptionCache a
    · obtain ⟨a, rfl⟩ := hce
      rw [fstep_createEnc _ _ _ _ hi] at h
      exact start _ _ h
    by_cases hcd : ∃ a, c = .createDecryptionCache a
    · obtain ⟨a, rfl⟩ := hcd
      rw [fstep_createDec _ _ _ _ hi] at h
      exact start _ _ h
    rw [fstep_other s τ c m hi (fun a ha => hce ⟨a, ha⟩) (fun a ha => hcd ⟨a, ha⟩)] at h
    obtain ⟨rfl, _⟩ := Prod.mk.inj h
    exact hi
  · rw [fstep_busy s τ c m hi] at h
    cases h

/-- **C48**: `get_last_error` returns the message of the last error of its thread (an empty message if there is none), cut to the size of
the buffer minus one and zero-terminated, and clears the error. -/
theorem C48_last_error {s : Sys (EncryptionCache G2 Gt) (DecryptionKey K G1 G3)} {τ : Thread} (hi : s.Idle τ) {m : CMem} {mem : Bytes} {n : Int32}
    (hm : m.slots .out = ⟨some mem, some n⟩) (h1 : 1 ≤ n.toInt) (h2 : n.toInt ≤ mem.length) {text : Bytes}
    (ht : (s.err τ = none ∧ text = []) ∨ ∃ e, s.err τ = some e ∧ text = e.text) (h0 : 0 ∉ text) :
    ∃ m', fstep lib s τ (.call .getLastError m) = ({ s with err := Sys.upd s.err τ none }, some (.ret 0, m')) ∧
      (∃ k, m'.slots .out = ⟨some (errorBuffer text mem n.toInt.toNat), some k⟩ ∧ k.toInt = min (n.toInt - 1) text.length) ∧
      (∀ k, k ≠ .out → m'.slots k = m.slots k) ∧ m'.handle = m.handle := by
  have htext : ((s.view τ m).err.map FfiError.text).getD [] = text := by
    simp only [Sys.view]
    rcases ht with ⟨h, rfl⟩ | ⟨e, h, rfl⟩ <;> rw [h] <;> rfl
  have hr := getLastError_run lib.display (s.view τ m) hm h1 h2 (by rw [htext]; exact h0)
  rw [htext] at hr
  rw [fstep_other s τ _ m hi (by simp) (by simp)]
  simp only [FCall.prog]
  rw [hr]
  refine ⟨_, rfl, ⟨asCInt (min (n.toInt.toNat - 1) text.length), setSlot_slots _ _ _, ?_⟩, fun k hk => if_neg hk, rfl⟩
  have hn := n.toInt_lt
  have : (min (n.toInt.toNat - 1) text.length : Nat) < 2 ^ 31 := by omega
  rw [asCInt_toInt this]
  omega

/-- **C48**: after a call which returns 1, whatever the other threads do in the meantime, `get_last_error` on the same thread returns the
message of the error of this call, and clears it. -/
theorem C48_message {s s1 : Sys (EncryptionCache G2 Gt) (DecryptionKey K G1 G3)} {τ : Thread} {c : FCall K Gt Nonce} {m m1 : CMem}
    (h2 : c ≠ .getLastError) (h3 : ∀ e, c ≠ .getEncryptedHeaderSize e) (h4 : c ≠ .symmetricEncryptionOverhead)
    (h : fstep lib s τ (.call c m) = (s1, some (.ret 1, m1))) :
    ∃ e : FfiError, (∀ f, (fstep lib { s with err := f } τ (.call c m)).1.err τ = some e) ∧
      ∀ (L : List (Thread × FEvent K Gt Nonce)) (m2 : CMem) (mem : Bytes) (n : Int32), (∀ x ∈ L, x.1 ≠ τ) → 0 ∉ e.text →
        m2.slots .out = ⟨some mem, some n⟩ → 1 ≤ n.toInt → n.toInt ≤ mem.length →
        ∃ m3 k, (fstep lib (frun lib s1 L) τ (.call .getLastError m2)).2 = some (.ret 0, m3) ∧
          m3.slots .out = ⟨some (errorBuffer e.text mem n.toInt.toNat), some k⟩ ∧ k.toInt = min (n.toInt - 1) e.text.length ∧
          (fstep lib (frun lib s1 L) τ (.call .getLastError m2)).1.err τ = none := by
  obtain ⟨e, he, hf⟩ := C48_failure h2 h3 h4 h
  refine ⟨e, hf, fun L m2 mem n hL h0 hm hn1 hn2 => ?_⟩
  have hi : s1.Idle τ := idle_of_reply h
  have he' : (frun lib s1 L).err τ = some e := (C48_kept hL s1).trans he
  obtain ⟨m3, g1, ⟨k, g2, g3⟩, _⟩ := C48_last_error (lib := lib) (pend_frun hL s1 hi) hm hn1 hn2 (.inr ⟨e, he', rfl⟩) h0
  exact ⟨m3, k, by rw [g1], g2, g3, by rw [g1]; exact upd_self _ _ _⟩

/-- **C48**: what a thread writes with `set_error`, it gets back with `get_last_error`. -/
theorem C48_round_trip {s : Sys (EncryptionCache G2 Gt) (DecryptionKey K G1 G3)} {τ : Thread} (hi : s.Idle τ) {b r : Bytes} (hb : 0 ∉ b)
    (hv : validUtf8 b = true) (m1 : CMem) {L : List (Thread × FEvent K Gt Nonce)} (hL : ∀ x ∈ L, x.1 ≠ τ) {m : CMem} {mem : Bytes} {n : Int32}
    (hm : m.slots .out = ⟨some mem, some n⟩) (h1 : 1 ≤ n.toInt) (h2 : n.toInt ≤ mem.length) :
    ∃ m', (fstep lib (frun lib s ((τ, .call (.setError (some (b ++ 0 :: r))) m1) :: L)) τ (.call .getLastError m)).2 = some (.ret 0, m') ∧
      (m'.slots .out).mem = some (errorBuffer (utf8 "FFI error: " ++ b) mem n.toInt.toNat) := by
  have hs : fstep lib s τ (.call (.setError (some (b ++ 0 :: r))) m1) =
      ({ s with err := Sys.upd s.err τ (some (.generic b)) }, some (.ret 0, m1)) := by
    rw [fstep_other s τ _ m1 hi (by simp) (by simp)]
    simp only [FCall.prog]
    rw [(C48_set_error (s.view τ m1)).1 _ b hb hv ⟨r, rfl⟩]
    rfl
  simp only [frun]
  rw [hs]
  have he := C48_kept (lib := lib) hL { s with err := Sys.upd s.err τ (some (.generic b)) }
  obtain ⟨m3, g1, ⟨k, g2, g3⟩, _⟩ := C48_last_error (lib := lib) (pend_frun hL { s with err := Sys.upd s.err τ (some (.generic b)) } hi) hm h1 h2
    (.inr ⟨_, he.trans (upd_self _ _ _), rfl⟩) (by
      simp only [FfiError.text, List.mem_append, not_or]
      exact ⟨by decide +kernel, hb⟩)
  exact ⟨m3, by rw [g1], by rw [g2]; rfl⟩

/-- **C48**, against the documentation of `get_last_error` ("as utf-8 bytes"): the cut is not at the end of a character, so what is written need not be UTF-8 although
the message is.  The message is the letter é set by the caller, the buffer has 13 bytes. -/
theorem C48_cut_character {s : Sys (EncryptionCache G2 Gt) (DecryptionKey K G1 G3)} {τ : Thread} (hi : s.Idle τ) (m1 : CMem) {m : CMem} {mem : Bytes}
    (hm : m.slots .out = ⟨some mem, some 13⟩) (h2 : 13 ≤ mem.length) :
    ∃ m' written, (fstep lib (frun lib s [(τ, .call (.setError (some (utf8 "é" ++ [0]))) m1)]) τ (.call .getLastError m)).2 = some (.ret 0, m') ∧
      (m'.slots .out).mem = some (written ++ 0 :: mem.drop 13) ∧ 0 ∉ written ∧ written <+: utf8 "FFI error: é" ∧
      validUtf8 (utf8 "FFI error: é") = true ∧ validUtf8 written = false := by
  obtain ⟨m', h, hm'⟩ := C48_round_trip (lib := lib) hi (b := utf8 "é") (r := []) (by decide +kernel) (by decide +kernel) m1 (L := []) (by simp) hm
    (by decide) (by simpa using h2)
  refine ⟨m', (utf8 "FFI error: é").take 12, h, ?_, by decide +kernel, List.take_prefix _ _, by decide +kernel, by decide +kernel⟩
  rw [hm']
  have h1 : utf8 "FFI error: " ++ utf8 "é" = utf8 "FFI error: é" := by decide +kernel
  have h3 : (13 : Int32).toInt.toNat = 13 := by decide
  rw [errorBuffer, h1, h3]
  have h4 : ((utf8 "FFI error: é").take 12).length = 12 := by decide +kernel
  simp only [Nat.reduceSub, h4, List.replicate_one, List.append_assoc, List.singleton_append]

end

namespace Demo

/-- The memory of a caller with buffers of 20 bytes, and of a caller with null pointers. -/
def mem20 : CMem := ⟨fun _ => buf 20 20, some 0⟩
def memNull : CMem := ⟨fun _ => ⟨none, none⟩, some 0⟩

/-- **C48**: a call without output buffer. -/
theorem fails : ∃ s1, fstep ffi Sys.init 3 (.call (.rotateAttributes (some [3, 0]) (some [1, 0])) memNull) = (s1, some (.ret 1, memNull)) ∧
    s1.err 3 = some (.nullPointer (utf8 "New policy pointer should point to pre-allocated memory")) := by
  exact ⟨_, rfl, rfl⟩

/-- Meanwhile another thread fails, sets and gets its error. -/
def others : List (Thread × FEvent F F SymNonce) :=
  [(4, .call (.decryptHeaderUsingCache (input [1]) 8) mem20), (4, .call .getLastError mem20), (5, .call (.setError (some [65, 0])) mem20)]

/-- The buffer of 20 bytes receives the first 19 bytes of the message. -/
example : ∃ s1 m3, fstep ffi Sys.init 3 (.call (.rotateAttributes (some [3, 0]) (some [1, 0])) memNull) = (s1, some (.ret 1, memNull)) ∧
    (fstep ffi (frun ffi s1 others) 3 (.call .getLastError mem20)).2 = some (.ret 0, m3) ∧
    m3.slots .out = ⟨some (utf8 "Invalid NULL pointe" ++ [0]), some 19⟩ := by
  obtain ⟨s1, h, he⟩ := fails
  obtain ⟨e, hf, hm⟩ := C48_message (by simp) (by simp) (by simp) h
  have he' : e = .nullPointer (utf8 "New policy pointer should point to pre-allocated memory") := by
    have := hf fun _ => none
    change (fstep ffi Sys.init 3 _).1.err 3 = some e at this
    rw [h, he] at this
    exact (Option.some.inj this).symm
  obtain ⟨m3, k, g1, g2, g3, _⟩ := hm others mem20 (List.replicate 20 0) 20 (by decide) (by rw [he']; decide +kernel) rfl (by decide) (by decide)
  refine ⟨s1, m3, h, g1, ?_⟩
  rw [g2, he']
  have hk : k = 19 := by
    apply Int32.toInt_inj.1
    rw [g3, he']
    decide +kernel
  rw [hk]
  decide +kernel

example : ReportsErrors (FCall.prog ffi (.rotateAttributes (some [3, 0]) (some [1, 0]) : FCall F F SymNonce)) :=
  C48_reports _ (by simp) (by simp) (by simp) (by simp)

/-- **C48**, no error: the message is empty. -/
example : ∃ m3, (fstep ffi Sys.init 3 (.call .getLastError mem20)).2 = some (.ret 0, m3) ∧ ∃ k, m3.slots .out = ⟨some (List.replicate 20 0), some k⟩ := by
  obtain ⟨m3, h1, ⟨k, h2, _⟩, _⟩ := C48_last_error (lib := ffi) (s := Sys.init) (τ := 3) ⟨rfl, rfl⟩ (m := mem20) (mem := List.replicate 20 0) (n := 20) rfl
    (by decide) (by decide) (.inl ⟨rfl, rfl⟩) (by simp)
  exact ⟨m3, by rw [h1], k, h2⟩

/-- **C48**: an error set by the caller; meanwhile the errors of the other threads are neither seen nor changed. -/
example : ∃ m', (fstep ffi (frun ffi Sys.init ((3, .call (.setError (some [72, 105, 0])) memNull) :: others)) 3 (.call .getLastError mem20)).2 =
      some (.ret 0, m') ∧ (m'.slots .out).mem = some (utf8 "FFI error: Hi" ++ List.replicate 7 0) :=
  C48_round_trip (lib := ffi) (s := Sys.init) ⟨rfl, rfl⟩ (b := [72, 105]) (r := []) (by decide) (by decide +kernel) memNull (L := others) (by decide)
    (m := mem20) (mem := List.replicate 20 0) (n := 20) rfl (by decide) (by decide)

example : (frun ffi ({ Sys.init with err := fun τ => some (.generic [UInt8.ofNat τ]) } : Sys (EncryptionCache F F) (DecryptionKey F F F)) others).err 3 =
    some (.generic [3]) := C48_kept (by decide) _

example : (fstep ffi { Sys.init with err := fun τ => if τ = 3 then none else some (.generic [1]) } 3 (.call .getLastError mem20)).2 =
    (fstep ffi Sys.init 3 (.call .getLastError mem20)).2 := 
  (C48_unseen (lib := ffi) (s := Sys.init) (τ := 3) (f := fun τ => if τ = 3 then none else some (.generic [1])) rfl (.call .getLastError mem20)).1

/-- A buffer of 13 bytes given after the letter é. -/
example := C48_cut_character (lib := ffi) (s := Sys.init) (τ := 3) ⟨rfl, rfl⟩ memNull (m := ⟨fun _ => buf 13 13, some 0⟩) (mem := List.replicate 13 0) rfl (by decide)

end Demo

end Abe

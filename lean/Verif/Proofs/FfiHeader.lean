import Verif.Proofs.FfiCalls

set_option linter.unusedSectionVars false

/-!
# Header functions of the C interface
-/

namespace Abe
open Prog

section
variable {E D α β : Type}

theorem bind_congr_at {x : Prog E D α} {f g : α → Prog E D β} {s : FState E D}
    (h : ∀ a s', x s = (.next a, s') → f a s' = g a s') : (x >>= f) s = (x >>= g) s := by
  simp only [bind_def, Prog.bind]
  rcases hx : x s with ⟨a | _ | _ | _, s'⟩
  · exact h a s' hx
  all_goals rfl

theorem OutBuf.Room.given {b : OutBuf} {x : Bytes} (h : b.Room x) : b.Given := by
  obtain ⟨m, n, rfl, h, _⟩ := h
  exact ⟨m, n, rfl, fun e => by rw [int32_eq_zero.1 e] at h; omega⟩

theorem OutBuf.TooSmall.given {b : OutBuf} {x : Bytes} (h : b.TooSmall x) : b.Given := by
  obtain ⟨m, n, rfl, h, _⟩ := h
  exact ⟨m, n, rfl, fun e => by rw [int32_eq_zero.1 e] at h; omega⟩

theorem OutBuf.Room.wanted {b : OutBuf} {x : Bytes} (h : b.Room x) : ¬ b.Unwanted := by
  obtain ⟨m, n, rfl, h, _⟩ := h
  rintro (h' | ⟨n', h', h''⟩)
  · simp at h'
  · simp only [Option.some.injEq] at h'
    subst h'; omega

theorem OutBuf.TooSmall.wanted {b : OutBuf} {x : Bytes} (h : b.TooSmall x) : ¬ b.Unwanted := by
  obtain ⟨m, n, rfl, h, _⟩ := h
  rintro (h' | ⟨n', h', h''⟩)
  · simp at h'
  · simp only [Option.some.injEq] at h'
    subst h'; omega

theorem checkOut_given {k : Slot} {s : FState E D} (x y : String) (h : (s.mem.slots k).Given) : checkOut k x y s = (.next (), s) := by
  obtain ⟨m, n, h, hn⟩ := h
  exact checkOut_pos x y h hn

theorem writeOut_room {t : Target} (ht : 31 ≤ t.bits) {k : Slot} {b : Bytes} {s : FState E D} (w : Nat → Int32 → Bytes)
    (h : (s.mem.slots k).Room b) : ∃ s', writeOut t k w b s = (.next (), s') ∧ s'.err = s.err ∧ OnlySlot k s s' ∧
      (s.mem.slots k).Filled b (s'.mem.slots k) := by
  obtain ⟨m, n, h, h0, h1, h2⟩ := h
  have ha := asUsize_nonneg ht h0.le
  exact ⟨_, writeOut_fits h (by omega) h2, rfl, onlySlot_setSlot _ _ _, m, _, by rw [h], setSlot_slots _ _ _, reportsLen_asCInt _⟩

theorem writeOut_tooSmall {t : Target} (ht : 31 ≤ t.bits) {k : Slot} {b : Bytes} {s : FState E D} {w : Nat → Int32 → Bytes}
    (hw : ∀ n a, firstNumber (FfiError.generic (w n a)).text = some n)
    (h : (s.mem.slots k).TooSmall b) : ∃ s', writeOut t k w b s = (.ret 1, s') ∧ SaysSize s' b.length ∧ OnlySlot k s s' ∧
      (s.mem.slots k).Told b (s'.mem.slots k) := by
  obtain ⟨m, n, h, h0, h1⟩ := h
  have ha := asUsize_nonneg ht h0.le
  exact ⟨_, writeOut_small h (by omega), ⟨_, rfl, hw _ _⟩, onlySlot_setSlot s _ _, _, by rw [h]; exact setSlot_slots s _ _, reportsLen_asCInt _⟩

theorem OnlySlot.slots {k : Slot} {s s' : FState E D} (h : OnlySlot k s s') : OnlySlots [k] s s' :=
  ⟨h.1, h.2.1, h.2.2.1, fun k' hk => h.2.2.2 k' (by simpa using hk)⟩

theorem OnlySlots.trans {ks ks' : List Slot} {s s' s'' : FState E D} (h : OnlySlots ks s s') (h' : OnlySlots ks' s' s'') :
    OnlySlots (ks ++ ks') s s'' :=
  ⟨h'.1.trans h.1, h'.2.1.trans h.2.1, h'.2.2.1.trans h.2.2.1, fun k hk => by
    rw [List.mem_append, not_or] at hk
    exact (h'.2.2.2 k hk.2).trans (h.2.2.2 k hk.1)⟩

theorem OnlySlots.refl (s : FState E D) : OnlySlots [] s s := ⟨rfl, rfl, rfl, fun _ _ => rfl⟩

theorem OnlySlots.mono {ks ks' : List Slot} {s s' : FState E D} (h : OnlySlots ks s s') (hk : ∀ k ∈ ks, k ∈ ks') :
    OnlySlots ks' s s' := ⟨h.1, h.2.1, h.2.2.1, fun k hk' => h.2.2.2 k fun h => hk' (hk k h)⟩

theorem OnlySlots.slot {ks : List Slot} {s s' : FState E D} (h : OnlySlots ks s s') {k : Slot} (hk : k ∉ ks) :
    s'.mem.slots k = s.mem.slots k := h.2.2.2 k hk

theorem run_next {p : Prog E D Int32} {s s' : FState E D} {c : Int32} (h : p s = (.next c, s')) : p.run s = (.ret c, s') := by
  rw [Prog.run, h]; rfl

theorem run_ret {p : Prog E D Int32} {s s' : FState E D} {c : Int32} (h : p s = (.ret c, s')) : p.run s = (.ret c, s') := by
  rw [Prog.run, h]; rfl

/-- The outputs of the functions encrypting a header. -/
def writeTwo (t : Target) (w w' : Nat → Int32 → Bytes) (kb hb : Bytes) : Prog E D Int32 := do
  writeOut t .symKey w kb
  writeOut t .header w' hb
  return 0

theorem deliversHeader_of {t : Target} (ht : 31 ≤ t.bits) {S : FState E D → Prop} {call : Prog E D Int32} {w w' : Nat → Int32 → Bytes}
    {kb hb : Bytes}
    (hw : ∀ n a, firstNumber (FfiError.generic (w n a)).text = some n)
    (hw' : ∀ n a, firstNumber (FfiError.generic (w' n a)).text = some n)
    (hc : ∀ s, S s → (s.mem.slots .symKey).Given → (s.mem.slots .header).Given → call s = writeTwo t w w' kb hb s) :
    DeliversHeader S call kb hb where
  keySmall := by
    intro s hs h1 h2
    obtain ⟨s', h3, h4, h5, h6⟩ := writeOut_tooSmall ht hw h1
    exact ⟨s', run_ret (by rw [hc s hs h1.given h2, writeTwo, bind_ret h3]), h4, h5.slots, h6⟩
  headerSmall := by
    intro s hs h1 h2
    obtain ⟨s', h3, h4, h5, h6⟩ := writeOut_room ht w h1
    have he := h5.2.2.2 .header (by decide)
    obtain ⟨s'', g3, g4, g5, g6⟩ := writeOut_tooSmall ht (s := s') hw' (k := .header) (b := hb) (by rw [he]; exact h2)
    refine ⟨s'', run_ret (by rw [hc s hs h1.given h2.given, writeTwo, bind_next h3, bind_ret g3]), g4, h5.slots.trans g5.slots, ?_,
      by rw [← he]; exact g6⟩
    rw [g5.2.2.2 .symKey (by decide)]; exact h6
  fits := by
    intro s hs h1 h2
    obtain ⟨s', h3, h4, h5, h6⟩ := writeOut_room ht w h1
    have he := h5.2.2.2 .header (by decide)
    obtain ⟨s'', g3, g4, g5, g6⟩ := writeOut_room ht (s := s') w' (k := .header) (b := hb) (by rw [he]; exact h2)
    refine ⟨s'', run_next (by rw [hc s hs h1.given h2.given, writeTwo, bind_next h3, bind_next g3]; rfl), g4.trans h4,
      h5.slots.trans g5.slots, ?_, by rw [← he]; exact g6⟩
    rw [g5.2.2.2 .symKey (by decide)]; exact h6

theorem ifExpected_unwanted {k : Slot} {p : Prog E D Unit} {s : FState E D} (h : (s.mem.slots k).Unwanted) :
    ifExpected k p s = (.next (), s) := by
  unfold ifExpected
  rw [bind_next (x := outPtr k) (a := (s.mem.slots k).mem) (s' := s) rfl]
  rcases h with h | ⟨n, h, hn⟩
  · rw [h]; rfl
  · cases (s.mem.slots k).mem with
    | none => rfl
    | some m =>
      simp only [Option.isNone_some, Bool.false_eq_true, if_false]
      rw [bind_next (a := n) (s' := s) (by unfold readLen; rw [h]), if_neg (by omega)]
      rfl

theorem ifExpected_wanted {k : Slot} {p : Prog E D Unit} {s : FState E D} {m : Bytes} {n : Int32}
    (h : s.mem.slots k = ⟨some m, some n⟩) (hn : 0 < n.toInt) : ifExpected k p s = p s := by
  unfold ifExpected
  rw [bind_next (x := outPtr k) (a := (s.mem.slots k).mem) (s' := s) rfl, h]
  simp only [Option.isNone_some, Bool.false_eq_true, if_false]
  rw [bind_next (a := n) (s' := s) (by unfold readLen; rw [h]), if_pos hn]

/-- The outputs of the functions decrypting a header. -/
def writeThree (t : Target) (w w' w'' : Nat → Int32 → Bytes) (kb uid : Bytes) (ad : Option Bytes) : Prog E D Int32 := do
  writeOut t .symKey w kb
  ifExpected .uid (writeOut t .uid w' uid)
  ifExpected .additional (match ad with
    | some ad => writeOut t .additional w'' ad
    | none => writeLen .additional 0)
  return 0

theorem writeUid {t : Target} (ht : 31 ≤ t.bits) {w : Nat → Int32 → Bytes} {uid : Bytes} {s : FState E D}
    (h : (s.mem.slots .uid).Unwanted ∨ (s.mem.slots .uid).Room uid) :
    ∃ s', ifExpected .uid (writeOut t .uid w uid) s = (.next (), s') ∧ s'.err = s.err ∧ OnlySlots [.uid] s s' ∧
      (s.mem.slots .uid).GetsUid uid (s'.mem.slots .uid) := by
  rcases h with h | h
  · exact ⟨s, ifExpected_unwanted h, rfl, (OnlySlots.refl s).mono (by simp), .inl ⟨h, rfl⟩⟩
  · obtain ⟨s', h1, h2, h3, h4⟩ := writeOut_room ht w h
    have hw := h.wanted
    obtain ⟨m, n, h5, h6, _⟩ := h
    exact ⟨s', by rw [ifExpected_wanted h5 h6, h1], h2, h3.slots, .inr ⟨hw, h4⟩⟩

theorem writeLen_some {k : Slot} {n n' : Int32} {s : FState E D} (h : (s.mem.slots k).len = some n') :
    writeLen k n s = (.next (), s.setSlot k ⟨(s.mem.slots k).mem, some n⟩) := by
  unfold writeLen
  rw [h]

theorem writeAdditional {t : Target} (ht : 31 ≤ t.bits) {w : Nat → Int32 → Bytes} {ad : Option Bytes} {s : FState E D}
    (h : (s.mem.slots .additional).Unwanted ∨ (s.mem.slots .additional).Room (ad.getD [])) :
    ∃ s', ifExpected .additional (match ad with
        | some ad => writeOut t .additional w ad
        | none => writeLen .additional 0) s = (.next (), s') ∧ s'.err = s.err ∧ OnlySlots [.additional] s s' ∧
      (s.mem.slots .additional).GetsAdditional ad (s'.mem.slots .additional) := by
  rcases h with h | h
  · exact ⟨s, ifExpected_unwanted h, rfl, (OnlySlots.refl s).mono (by simp), .inl ⟨h, rfl⟩⟩
  · have hw := h.wanted
    cases ad with
    | some x =>
      obtain ⟨s', h1, h2, h3, h4⟩ := writeOut_room ht w h
      obtain ⟨m, n, h5, h6, _⟩ := h
      exact ⟨s', by rw [ifExpected_wanted h5 h6]; exact h1, h2, h3.slots, .inr ⟨hw, h4⟩⟩
    | none =>
      obtain ⟨m, n, h5, h6, _⟩ := h
      refine ⟨s.setSlot .additional ⟨(s.mem.slots .additional).mem, some 0⟩, by
        rw [ifExpected_wanted h5 h6]; exact writeLen_some (n' := n) (by rw [h5]), rfl, (onlySlot_setSlot s _ _).slots,
        .inr ⟨hw, ?_⟩⟩
      exact setSlot_slots s _ _

theorem deliversClearHeader_of {t : Target} (ht : 31 ≤ t.bits) {S : FState E D → Prop} {call : Prog E D Int32}
    {w w' w'' : Nat → Int32 → Bytes} {kb uid : Bytes} {ad : Option Bytes}
    (hw : ∀ n a, firstNumber (FfiError.generic (w n a)).text = some n)
    (hw' : ∀ n a, firstNumber (FfiError.generic (w' n a)).text = some n)
    (hw'' : ∀ n a, firstNumber (FfiError.generic (w'' n a)).text = some n)
    (hc : ∀ s, S s → (s.mem.slots .symKey).Given → call s = writeThree t w w' w'' kb uid ad s) :
    DeliversClearHeader S call kb uid ad where
  keySmall := by
    intro s hs h1
    obtain ⟨s', h3, h4, h5, h6⟩ := writeOut_tooSmall ht hw h1
    exact ⟨s', run_ret (by rw [hc s hs h1.given, writeThree.eq_def, bind_ret h3]), h4, h5.slots, h6⟩
  uidSmall := by
    intro s hs h1 h2
    obtain ⟨s', h3, h4, h5, h6⟩ := writeOut_room ht w h1
    have he := h5.2.2.2 .uid (by decide)
    rw [← he] at h2 ⊢
    obtain ⟨s'', g3, g4, g5, g6⟩ := writeOut_tooSmall ht hw' h2
    obtain ⟨m, n, k1, k2, _⟩ := h2
    refine ⟨s'', run_ret (by rw [hc s hs h1.given, writeThree.eq_def, bind_next h3, bind_ret (by rw [ifExpected_wanted k1 k2, g3])]), g4,
      h5.slots.trans g5.slots, ?_, g6⟩
    rw [g5.2.2.2 .symKey (by decide)]; exact h6
  additionalSmall := by
    intro s x hs hx h1 h2 h3
    obtain ⟨s1, a1, a2, a3, a4⟩ := writeOut_room ht w h1
    have e1 := a3.2.2.2 .uid (by decide)
    have e2 := a3.2.2.2 .additional (by decide)
    rw [← e1] at h2 ⊢
    rw [← e2] at h3 ⊢
    obtain ⟨s2, b1, b2, b3, b4⟩ := writeUid ht (w := w') h2
    have e3 := b3.slot (k := .additional) (by decide)
    rw [← e3] at h3 ⊢
    obtain ⟨s3, c1, c2, c3, c4⟩ := writeOut_tooSmall ht hw'' h3
    obtain ⟨m, n, k1, k2, _⟩ := h3
    subst hx
    refine ⟨s3, run_ret ?_, c2, (a3.slots.trans b3).trans c3.slots, ?_, ?_, c4⟩
    · rw [hc s hs h1.given, writeThree.eq_def, bind_next a1, bind_next b1, bind_ret (by rw [ifExpected_wanted k1 k2]; exact c1)]
    · rw [c3.2.2.2 .symKey (by decide), b3.slot (by decide)]; exact a4
    · rw [c3.2.2.2 .uid (by decide)]; exact b4
  fits := by
    intro s hs h1 h2 h3
    obtain ⟨s1, a1, a2, a3, a4⟩ := writeOut_room ht w h1
    have e1 := a3.2.2.2 .uid (by decide)
    have e2 := a3.2.2.2 .additional (by decide)
    rw [← e1] at h2 ⊢
    rw [← e2] at h3 ⊢
    obtain ⟨s2, b1, b2, b3, b4⟩ := writeUid ht (w := w') h2
    have e3 := b3.slot (k := .additional) (by decide)
    rw [← e3] at h3 ⊢
    obtain ⟨s3, c1, c2, c3, c4⟩ := writeAdditional ht (w := w'') h3
    refine ⟨s3, run_next ?_, c2.trans (b2.trans a2), (a3.slots.trans b3).trans c3, ?_, ?_, c4⟩
    · rw [hc s hs h1.given, writeThree.eq_def, bind_next a1, bind_next b1, bind_next c1]; rfl
    · rw [c3.slot (k := .symKey) (by decide), b3.slot (by decide)]; exact a4
    · rw [c3.slot (k := .uid) (by decide)]; exact b4

end

section
variable {K G1 G2 G3 Gt Key Nonce : Type} [Field K] [DecidableEq K] {lib : FfiLib K G1 G2 G3 Gt Key Nonce}

/-- The metadata given to the functions encrypting a header. -/
def headerMetadata (a : EncHeaderArgs K Gt Nonce) : Foreign K G1 G2 G3 Gt Metadata := do
  let uid ← (if a.uid.mem.isNone ∨ a.uid.len = 0 then pure [] else readIn a.uid : Foreign K G1 G2 G3 Gt Bytes)
  let additional ← (if a.additional.mem.isNone ∨ a.additional.len = 0 then pure none
    else do let b ← readIn a.additional; pure (some b) : Foreign K G1 G2 G3 Gt (Option Bytes))
  return { uid := uid, additionalData := additional }

theorem const_headerMetadata (a : EncHeaderArgs K Gt Nonce) : Const (headerMetadata a : Foreign K G1 G2 G3 Gt Metadata) := by
  unfold headerMetadata
  refine Const.bind ?_ fun _ => Const.bind ?_ fun _ => const_pure _
  · split
    · exact const_pure _
    · exact const_readIn _
  · split
    · exact const_pure _
    · exact (const_readIn _).bind fun _ => const_pure _

/-- The symmetric key and the header returned by the functions encrypting a header. -/
def encHeaderPayload (lib : FfiLib K G1 G2 G3 Gt Key Nonce) (cache : EncryptionCache G2 Gt) (a : EncHeaderArgs K Gt Nonce) :
    Foreign K G1 G2 G3 Gt (Bytes × Bytes) := do
  let attributes ← readStr a.attributes (utf8 "Hybrid Cipher: invalid Policy")
  let attributes ← lib.json (lib.serde.attributesDec attributes)
  let md ← headerMetadata a
  let h ← lib.unwrap (encryptHybridHeader lib.e lib.bm lib.cs lib.t cache.policy cache.publicKey attributes
    (some md) a.random a.s a.nonce)
  return (lib.e.keyEnc h.symmetricKey, h.encryptedHeaderBytes)

theorem const_encHeaderPayload (cache : EncryptionCache G2 Gt) (a : EncHeaderArgs K Gt Nonce) : Const (encHeaderPayload lib cache a) :=
  (const_readStr _ _).bind fun _ => (const_json _).bind fun _ => (const_headerMetadata _).bind fun _ => (const_libUnwrap _).bind fun _ =>
    const_pure _

theorem finishEncryptHeader_eq (cache : EncryptionCache G2 Gt) (a : EncHeaderArgs K Gt Nonce) :
    finishEncryptHeader lib cache a = (encHeaderPayload lib cache a >>= fun x =>
      writeTwo lib.t (tooSmall' "symmetric key") (tooSmall' "symmetric key") x.1 x.2) := by
  simp only [finishEncryptHeader, encHeaderPayload, headerMetadata, writeTwo, bind_assoc, pure_bind]

/-- The key, identifier and additional data returned by the functions decrypting a header. -/
def decHeaderPayload (lib : FfiLib K G1 G2 G3 Gt Key Nonce) (key : DecryptionKey K G1 G3) (header : Bytes) :
    Foreign K G1 G2 G3 Gt (ClearTextHeader Key) :=
  lib.unwrap (decryptHybridHeader lib.e lib.bm lib.cs lib.t key header)

theorem finishDecryptHeader_eq (key : DecryptionKey K G1 G3) (header : Bytes) :
    finishDecryptHeader lib key header = (decHeaderPayload lib key header >>= fun h =>
      writeThree lib.t (tooSmall' "symmetric key") (tooSmall' "uid") (tooSmall' "additional_data") (lib.e.keyEnc h.symmetricKey)
        h.metaData.uid h.metaData.additionalData) := rfl

theorem checkEncryptHeaderOut_given {s : FState (EncryptionCache G2 Gt) (DecryptionKey K G1 G3)} (h : (s.mem.slots .symKey).Given)
    (h' : (s.mem.slots .header).Given) : checkEncryptHeaderOut s = (.next (), s) := by
  unfold checkEncryptHeaderOut
  rw [bind_next (checkOut_given _ _ h), checkOut_given _ _ h']

/-- Either the check of the outputs stops without effect, or it does nothing. -/
theorem checkEncryptHeaderOut_cases (s : FState (EncryptionCache G2 Gt) (DecryptionKey K G1 G3)) :
    (∃ e, checkEncryptHeaderOut s = (.ret 1, { s with err := some e })) ∨ checkEncryptHeaderOut s = (.ub, s) ∨
    checkEncryptHeaderOut s = (.next (), s) := by
  unfold checkEncryptHeaderOut
  rcases checkOut_cases .symKey "Symmetric key pointer should point to pre-allocated memory"
    "The symmetric key buffer should have a size greater than zero" s with ⟨e, h⟩ | h | ⟨_, _, _, _, h⟩
  · exact .inl ⟨e, bind_ret h⟩
  · exact .inr (.inl (bind_ub h))
  · rw [bind_next h]
    rcases checkOut_cases .header "Header bytes pointer should point to pre-allocated memory"
      "The header bytes buffer should have a size greater than zero" s with ⟨e, h⟩ | h | ⟨_, _, _, _, h⟩
    · exact .inl ⟨e, h⟩
    · exact .inr (.inl h)
    · exact .inr (.inr h)

theorem neverWritesOn_of_cases {E D : Type} {S : FState E D → Prop} {chk : Prog E D Unit} {f : Unit → Prog E D Int32}
    (hchk : ∀ s, (∃ e, chk s = (.ret 1, { s with err := some e })) ∨ chk s = (.ub, s) ∨ chk s = (.next (), s))
    (hf : ∀ s, S s → (∃ e, f () s = (.ret 1, { s with err := some e })) ∨ f () s = (.panic, s) ∨ f () s = (.ub, s)) :
    NeverWritesOn S (chk >>= f) := by
  intro s hs
  rw [Prog.run]
  rcases hchk s with ⟨e, h⟩ | h | h
  · rw [bind_ret h]; exact ⟨by simp [Prog.finish], rfl⟩
  · rw [bind_ub h]; exact ⟨by simp [Prog.finish], rfl⟩
  · rw [bind_next h]
    rcases hf s hs with ⟨e, h⟩ | h | h <;> rw [h] <;> exact ⟨by simp [Prog.finish], rfl⟩

theorem Prog.Const.stop_cases {E D α β : Type} {p : Prog E D α} (h : Const p) (hn : ∀ a, p ≠ pure a) (f : α → Prog E D β)
    (s : FState E D) :
    (∃ e, (p >>= f) s = (.ret 1, { s with err := some e })) ∨ (p >>= f) s = (.panic, s) ∨ (p >>= f) s = (.ub, s) := by
  rcases h with ⟨a, rfl⟩ | ⟨e, rfl⟩ | rfl | rfl
  · exact absurd rfl (hn a)
  · exact .inl ⟨e, rfl⟩
  · exact .inr (.inl rfl)
  · exact .inr (.inr rfl)

end

end Abe

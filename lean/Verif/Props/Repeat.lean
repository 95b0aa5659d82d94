import Verif.Spec.Repeat
import Verif.Props.Ffi
import Verif.Props.Hybrid
import Verif.Props.RepoFfiTests

/-!
# Property C102: calls with the lengths left by the call before

The functions that encrypt and decrypt headers (/repo/src/interfaces/ffi/hybrid_gpsw_aes.rs) take the capacity of a buffer in the variable in which they leave the size of the result, so
a program that does not set the variable again announces less for the next call.  The benchmarks of the repository do so (`RepoBench`).
-/

set_option linter.unusedSectionVars false

namespace Abe

section
variable {E D : Type}

theorem OutBuf.RoomFor.room {b : OutBuf} {n : Nat} (h : b.RoomFor n) {x : Bytes} (hx : x.length ≤ n) : b.Room x := by
  obtain ⟨m, k, h1, h2, h3, h4⟩ := h
  exact ⟨m, k, h1, h2, by omega, by omega⟩

/-- A filled buffer holds what was written, and has room for as much again. -/
theorem OutBuf.Filled.after {b b' : OutBuf} {x : Bytes} (h : b.Filled x b') (hx : x.length < 2 ^ 31) :
    b'.Holds x ∧ (x ≠ [] → b'.RoomFor x.length) := by
  obtain ⟨m, n, h1, rfl, h3⟩ := h
  have h3 := h3 hx
  refine ⟨⟨_, n, rfl, by omega, ?_⟩, fun h0 => ⟨_, n, rfl, ?_, by omega, by simp⟩⟩
  · rw [h3]
    simp
  · have := List.length_pos_iff.2 h0
    omega

/-- Calls that deliver headers of the same size, one after the other. -/
theorem allSucceed_headers {S : FState E D → Prop} (hS : ∀ ks s s', OnlySlots ks s s' → S s → S s') {a b : Nat} (ha : 0 < a) (ha' : a < 2 ^ 31) (hb : 0 < b) (hb' : b < 2 ^ 31) :
    ∀ (calls : List (Prog E D Int32 × Bytes × Bytes)),
      (∀ c ∈ calls, DeliversHeader S c.1 c.2.1 c.2.2 ∧ c.2.1.length = a ∧ c.2.2.length = b) →
      ∀ s, S s → (s.mem.slots .symKey).RoomFor a → (s.mem.slots .header).RoomFor b →
        AllSucceed (calls.map fun c => (c.1, [(.symKey, c.2.1), (.header, c.2.2)])) s
  | [], _, _, _, _, _ => trivial
  | (call, kb, hbs) :: rest, h, s, hs, h1, h2 => by
    obtain ⟨hd, hka, hhb⟩ := h _ List.mem_cons_self
    dsimp only at hd hka hhb
    have r1 := h1.room (x := kb) (by omega)
    have r2 := h2.room (x := hbs) (by omega)
    obtain ⟨s', g1, _, g2, g3, g4⟩ := hd.fits s hs r1 r2
    obtain ⟨f1, f2⟩ := OutBuf.Filled.after g3 (by omega)
    obtain ⟨f3, f4⟩ := OutBuf.Filled.after g4 (by omega)
    refine ⟨s', g1, ?_, allSucceed_headers hS ha ha' hb hb' rest (fun c hc => h c (List.mem_cons_of_mem _ hc)) s' (hS _ _ _ g2 hs) ?_ ?_⟩
    · intro x hx
      simp only [List.mem_cons, List.not_mem_nil, or_false] at hx
      rcases hx with rfl | rfl
      · exact f1
      · exact f3
    · have := f2 (by rintro rfl; simp at hka; omega)
      rwa [hka] at this
    · have := f4 (by rintro rfl; simp at hhb; omega)
      rwa [hhb] at this

theorem OutBuf.RoomFor.wanted {b : OutBuf} {n : Nat} (h : b.RoomFor n) : ¬ b.Unwanted := by
  obtain ⟨m, k, rfl, h2, _⟩ := h
  rintro (h | ⟨n', h, h'⟩)
  · cases h
  · cases h
    omega

/-- A buffer in which a call left the output `x`: what the caller reads, and what the next call finds. -/
theorem OutBuf.Filled.left {b b' : OutBuf} {x : Bytes} (h : b.Filled x b') (hx : x.length < 2 ^ 31) :
    b'.Holds x ∧ (x = [] → b'.Unwanted) ∧ (x ≠ [] → ∀ y : Bytes, y.length ≤ x.length → b'.Room y) ∧ (x ≠ [] → ∀ y : Bytes, x.length < y.length → b'.TooSmall y) := by
  refine ⟨(h.after hx).1, ?_⟩
  obtain ⟨m, n, h1, rfl, h3⟩ := h
  have h3 := h3 hx
  refine ⟨?_, fun h0 y hy => ?_, fun h0 y hy => ?_⟩
  · rintro rfl
    exact .inr ⟨n, rfl, by simp at h3; omega⟩
  · have := List.length_pos_iff.2 h0
    exact ⟨_, n, rfl, by omega, by omega, by simp; omega⟩
  · have := List.length_pos_iff.2 h0
    exact ⟨_, n, rfl, by omega, by omega⟩

/-- The same for an optional output, none being as good as an empty one. -/
theorem OutBuf.GetsAdditional.left {b b' : OutBuf} {ad : Option Bytes} (hb : b.RoomFor (ad.getD []).length) (h : b.GetsAdditional ad b') (hx : (ad.getD []).length < 2 ^ 31) :
    b'.Holds (ad.getD []) ∧ (ad.getD [] = [] → b'.Unwanted) ∧ (ad.getD [] ≠ [] → ∀ y : Bytes, y.length ≤ (ad.getD []).length → b'.Room y) ∧
      (ad.getD [] ≠ [] → ∀ y : Bytes, (ad.getD []).length < y.length → b'.TooSmall y) := by
  rcases h with ⟨h, _⟩ | ⟨_, h⟩
  · exact absurd h hb.wanted
  · cases ad with
    | some x => exact OutBuf.Filled.left h hx
    | none =>
      obtain ⟨m, k, rfl, _⟩ := hb
      obtain rfl : b' = ⟨some m, some 0⟩ := h
      exact ⟨⟨m, 0, rfl, by decide, by simp⟩, fun _ => .inr ⟨0, rfl, by decide⟩, fun h => absurd rfl h, fun h => absurd rfl h⟩

/-- An unwanted buffer in which the caller reads nothing is left as it is. -/
theorem OutBuf.GetsUid.still {b b' : OutBuf} {x : Bytes} (hu : b.Unwanted) (h : b.GetsUid x b') : b' = b := by
  rcases h with ⟨_, h⟩ | ⟨h, _⟩
  · exact h
  · exact absurd hu h

theorem OutBuf.GetsAdditional.still {b b' : OutBuf} {x : Option Bytes} (hu : b.Unwanted) (h : b.GetsAdditional x b') : b' = b := by
  rcases h with ⟨_, h⟩ | ⟨h, _⟩
  · exact h
  · exact absurd hu h

/-- What is read after the second of two calls which leave something in the same buffer, the second with the length left by the first. -/
def secondOutput (first second : Bytes) : Bytes := if first = [] then [] else second

theorem OutBuf.Room.roomFor {b : OutBuf} {x : Bytes} (h : b.Room x) : b.RoomFor x.length := h

/-- Two calls that return headers in the clear, the second with what the first left. -/
theorem second_clear_header {S : FState E D → Prop} (hS : ∀ ks s s', OnlySlots ks s s' → S s → S s') {call1 call2 : Prog E D Int32} {k1 k2 u1 u2 : Bytes} {a1 a2 : Option Bytes}
    (h1 : DeliversClearHeader S call1 k1 u1 a1) (h2 : DeliversClearHeader S call2 k2 u2 a2) (hk : k1.length = k2.length) (hk0 : k1 ≠ []) (hk' : k1.length < 2 ^ 31)
    (hu1 : u1.length < 2 ^ 31) (hu2 : u2.length < 2 ^ 31) (ha1 : (a1.getD []).length < 2 ^ 31) (ha2 : (a2.getD []).length < 2 ^ 31) (s : FState E D) (hs : S s)
    (r1 : (s.mem.slots .symKey).Room k1) (r2 : (s.mem.slots .uid).Room u1) (r3 : (s.mem.slots .additional).Room (a1.getD [])) :
    ∃ s1, call1.run s = (.ret 0, s1) ∧ S s1 ∧ (s1.mem.slots .symKey).Holds k1 ∧ (s1.mem.slots .uid).Holds u1 ∧ (s1.mem.slots .additional).Holds (a1.getD []) ∧
      ((u1 = [] ∨ u2.length ≤ u1.length) ∧ (a1.getD [] = [] ∨ (a2.getD []).length ≤ (a1.getD []).length) →
        ∃ s2, call2.run s1 = (.ret 0, s2) ∧ (s2.mem.slots .symKey).Holds k2 ∧ (s2.mem.slots .uid).Holds (secondOutput u1 u2) ∧
          (s2.mem.slots .additional).Holds (secondOutput (a1.getD []) (a2.getD []))) ∧
      (u1 ≠ [] ∧ u1.length < u2.length → ∃ s2, call2.run s1 = (.ret 1, s2) ∧ SaysSize s2 u2.length) ∧
      ((u1 = [] ∨ u2.length ≤ u1.length) → a1.getD [] ≠ [] ∧ (a1.getD []).length < (a2.getD []).length →
        ∃ s2, call2.run s1 = (.ret 1, s2) ∧ SaysSize s2 (a2.getD []).length) := by
  obtain ⟨s1, g1, _, g2, g3, g4, g5⟩ := h1.fits s hs r1 (.inr r2) (.inr r3)
  obtain ⟨f1, _, f2, _⟩ := OutBuf.Filled.left g3 hk'
  have g4 := (g4.resolve_left fun h => r2.roomFor.wanted h.1).2
  obtain ⟨e1, e2, e3, e4⟩ := OutBuf.Filled.left g4 hu1
  obtain ⟨d1, d2, d3, d4⟩ := OutBuf.GetsAdditional.left r3.roomFor g5 ha1
  have hs1 := hS _ _ _ g2 hs
  have kr : (s1.mem.slots .symKey).Room k2 := f2 hk0 k2 (by omega)
  have ur : (u1 = [] ∨ u2.length ≤ u1.length) → (s1.mem.slots .uid).Unwanted ∨ (s1.mem.slots .uid).Room u2 := by
    intro h
    by_cases h0 : u1 = []
    · exact .inl (e2 h0)
    · exact .inr (e3 h0 u2 (h.resolve_left h0))
  refine ⟨s1, g1, hs1, f1, e1, d1, ?_, ?_, ?_⟩
  · rintro ⟨hu, ha⟩
    have ar : (s1.mem.slots .additional).Unwanted ∨ (s1.mem.slots .additional).Room (a2.getD []) := by
      by_cases h0 : a1.getD [] = []
      · exact .inl (d2 h0)
      · exact .inr (d3 h0 _ (ha.resolve_left h0))
    obtain ⟨s2, g1', _, _, g3', g4', g5'⟩ := h2.fits s1 hs1 kr (ur hu) ar
    refine ⟨s2, g1', (OutBuf.Filled.left g3' (by omega)).1, ?_, ?_⟩
    · by_cases h0 : u1 = []
      · rw [OutBuf.GetsUid.still (e2 h0) g4', secondOutput, if_pos h0]
        rwa [h0] at e1
      · rw [secondOutput, if_neg h0]
        exact (OutBuf.Filled.left (g4'.resolve_left fun h => (e3 h0 u2 (hu.resolve_left h0)).roomFor.wanted h.1).2 hu2).1
    · by_cases h0 : a1.getD [] = []
      · rw [OutBuf.GetsAdditional.still (d2 h0) g5', secondOutput, if_pos h0]
        rwa [h0] at d1
      · rw [secondOutput, if_neg h0]
        exact (OutBuf.GetsAdditional.left (d3 h0 _ (ha.resolve_left h0)).roomFor g5' ha2).1
  · rintro ⟨h0, hl⟩
    obtain ⟨s2, g, g', _⟩ := h2.uidSmall s1 hs1 kr (e4 h0 u2 hl)
    exact ⟨s2, g, g'⟩
  · rintro hu ⟨h0, hl⟩
    cases a2 with
    | none => simp at hl
    | some x =>
      obtain ⟨s2, g, g', _⟩ := h2.additionalSmall s1 x hs1 rfl kr (ur hu) (d4 h0 x hl)
      exact ⟨s2, g, g'⟩

/-- The same call any number of times. -/
theorem allSucceed_same {S : FState E D → Prop} (hS : ∀ ks s s', OnlySlots ks s s' → S s → S s') {call : Prog E D Int32} {k u : Bytes} {a : Option Bytes}
    (h : DeliversClearHeader S call k u a) (hk0 : k ≠ []) (hk : k.length < 2 ^ 31) (hu : u.length < 2 ^ 31) (ha : (a.getD []).length < 2 ^ 31) :
    ∀ (n : Nat) (s : FState E D), S s → (s.mem.slots .symKey).Room k → (s.mem.slots .uid).Room u ∨ ((s.mem.slots .uid).Unwanted ∧ u = [] ∧ (s.mem.slots .uid).Holds []) →
      (s.mem.slots .additional).Room (a.getD []) ∨ ((s.mem.slots .additional).Unwanted ∧ a.getD [] = [] ∧ (s.mem.slots .additional).Holds []) →
      AllSucceed (List.replicate n (call, [(.symKey, k), (.uid, u), (.additional, a.getD [])])) s
  | 0, _, _, _, _, _ => trivial
  | n + 1, s, hs, r1, r2, r3 => by
    obtain ⟨s1, g1, _, g2, g3, g4, g5⟩ := h.fits s hs r1 (r2.symm.imp_left fun h => h.1) (r3.symm.imp_left fun h => h.1)
    obtain ⟨f1, _, f2, _⟩ := OutBuf.Filled.left g3 hk
    have hu' : (s1.mem.slots .uid).Holds u ∧ ((s1.mem.slots .uid).Room u ∨ ((s1.mem.slots .uid).Unwanted ∧ u = [] ∧ (s1.mem.slots .uid).Holds [])) := by
      rcases r2 with r2 | ⟨r2, h0, h0'⟩
      · have g4 := (g4.resolve_left fun h => r2.roomFor.wanted h.1).2
        obtain ⟨e1, e2, e3, _⟩ := OutBuf.Filled.left g4 hu
        refine ⟨e1, ?_⟩
        by_cases h0 : u = []
        · exact .inr ⟨e2 h0, h0, by rwa [h0] at e1⟩
        · exact .inl (e3 h0 u le_rfl)
      · rw [OutBuf.GetsUid.still r2 g4]
        exact ⟨by rwa [h0], .inr ⟨r2, h0, h0'⟩⟩
    have ha' : (s1.mem.slots .additional).Holds (a.getD []) ∧
        ((s1.mem.slots .additional).Room (a.getD []) ∨ ((s1.mem.slots .additional).Unwanted ∧ a.getD [] = [] ∧ (s1.mem.slots .additional).Holds [])) := by
      rcases r3 with r3 | ⟨r3, h0, h0'⟩
      · obtain ⟨e1, e2, e3, _⟩ := OutBuf.GetsAdditional.left r3.roomFor g5 ha
        refine ⟨e1, ?_⟩
        by_cases h0 : a.getD [] = []
        · exact .inr ⟨e2 h0, h0, by rwa [h0] at e1⟩
        · exact .inl (e3 h0 _ le_rfl)
      · rw [OutBuf.GetsAdditional.still r3 g5]
        exact ⟨by rwa [h0], .inr ⟨r3, h0, h0'⟩⟩
    refine ⟨s1, g1, ?_, allSucceed_same hS h hk0 hk hu ha n s1 (hS _ _ _ g2 hs) (f2 hk0 k le_rfl) hu'.2 ha'.2⟩
    intro x hx
    simp only [List.mem_cons, List.not_mem_nil, or_false] at hx
    rcases hx with rfl | rfl | rfl
    · exact f1
    · exact hu'.1
    · exact ha'.1

end

section
variable {K P Q QP T Key Nonce : Type} [Field K] [DecidableEq K] [AddCommGroup P] [Module K P] [AddCommGroup Q] [Module K Q] [AddCommGroup T] [Module K T]
  {lib : FfiLib K QP P Q T Key Nonce} {tag : Nat}

/-- The sizes of the answers to requests that differ in their randomness only. -/
theorem headerAnswer_sizes (c : Curve K P Q QP T) (hbm : lib.bm = bls c) (hcs : lib.cs.Lawful) (he : lib.e.Lawful tag) {p : Policy} (hw : p.WF)
    {rnd : Nat → K} {y : K} {mk : MasterKey K P Q T} (hmk : engineGenerateMasterKey (bls c) p rnd y = .ok mk)
    {a : EncHeaderArgs K T Nonce} {atts : List Attribute} (hatts : StrArg a.attributes lib.serde.attributesDec atts) (h0 : atts ≠ []) {uid : Bytes} {ad : Option Bytes}
    (huid : UidArg a.uid uid) (had : AdditionalArg a.additional ad) {mb : Bytes} (hmb : lib.e.metaEnc ⟨uid, ad⟩ = .ok mb) {kb hb : Bytes}
    (h : HeaderAnswer lib ⟨p, mk.pubKey⟩ a kb hb) :
    kb.length = lib.e.keyLen ∧ hb.length = 300 + 52 * atts.length + lib.e.nonceLen + 4 + mb.length + tag := by
  obtain ⟨atts1, uid1, ad1, h1, e1, e2, e3, e4, rfl, rfl⟩ := h
  obtain rfl := e1.unique hatts
  obtain rfl : uid1 = uid := by
    rcases e2 with ⟨m1, rfl⟩ | ⟨m1, e2⟩ <;> rcases huid with ⟨m2, rfl⟩ | ⟨m2, huid⟩
    · rfl
    · exact absurd m1 m2
    · exact absurd m2 m1
    · exact e2.unique huid
  obtain rfl : ad1 = ad := by
    rcases e3 with ⟨m1, rfl⟩ | ⟨m1, x1, e3, rfl⟩ <;> rcases had with ⟨m2, h⟩ | ⟨m2, x2, had, h⟩
    · exact h.symm
    · exact absurd m1 m2
    · exact absurd m2 m1
    · rw [h, e3.unique had]
  rw [hbm] at e4
  exact ⟨he.keyEnc_length _, (C36_length c hcs he hw hmk h0 e4).2 _ rfl mb hmb⟩

/-- **C102**: encryptions of headers through the C interface, for the same attributes and metadata, can be repeated any number of times with the buffers and lengths left by the
call before, each time with other randomness; the caller reads each time the key and the header which the call made. -/
theorem C102_encryptions (ht : 31 ≤ lib.t.bits) (c : Curve K P Q QP T) (hbm : lib.bm = bls c) (hcs : lib.cs.Lawful) (he : lib.e.Lawful tag) (hk0 : 0 < lib.e.keyLen)
    (hk : lib.e.keyLen < 2 ^ 31) {p : Policy} (hw : p.WF) {rnd : Nat → K} {y : K} {mk : MasterKey K P Q T} (hmk : engineGenerateMasterKey (bls c) p rnd y = .ok mk)
    {ca : EncCacheArgs} (hc : ca.Decodes lib ⟨p, mk.pubKey⟩) {attributes : Option Bytes} {u d : InBuf} {atts : List Attribute} (hatts : StrArg attributes lib.serde.attributesDec atts)
    (h0 : atts ≠ []) {uid : Bytes} {ad : Option Bytes} (huid : UidArg u uid) (had : AdditionalArg d ad) {mb : Bytes} (hmb : lib.e.metaEnc ⟨uid, ad⟩ = .ok mb)
    {size : Nat} (hsize : size = 300 + 52 * atts.length + lib.e.nonceLen + 4 + mb.length + tag) (hsize' : size < 2 ^ 31)
    (draws : List ((T × K × Nonce) × EncryptedHeader Key))
    (hd : ∀ r ∈ draws, encryptHybridHeader lib.e lib.bm lib.cs lib.t p mk.pubKey atts (some ⟨uid, ad⟩) r.1.1 r.1.2.1 r.1.2.2 = .ok r.2)
    (s : FState (EncryptionCache P T) (DecryptionKey K QP Q)) (hr : (s.mem.slots .symKey).RoomFor lib.e.keyLen) (hr' : (s.mem.slots .header).RoomFor size) :
    AllSucceed (draws.map fun r => (hEncryptHeader lib ca ⟨attributes, u, d, r.1.1, r.1.2.1, r.1.2.2⟩,
      [(.symKey, lib.e.keyEnc r.2.symmetricKey), (.header, r.2.encryptedHeaderBytes)])) s ∧
    ∀ h, s.enc.get h = some ⟨p, mk.pubKey⟩ → AllSucceed (draws.map fun r => (hEncryptHeaderUsingCache lib h ⟨attributes, u, d, r.1.1, r.1.2.1, r.1.2.2⟩,
      [(.symKey, lib.e.keyEnc r.2.symmetricKey), (.header, r.2.encryptedHeaderBytes)])) s := by
  have hans : ∀ r ∈ draws, HeaderAnswer lib ⟨p, mk.pubKey⟩ ⟨attributes, u, d, r.1.1, r.1.2.1, r.1.2.2⟩ (lib.e.keyEnc r.2.symmetricKey) r.2.encryptedHeaderBytes :=
    fun r h => ⟨atts, uid, ad, r.2, hatts, huid, had, hd r h, rfl, rfl⟩
  have hsz : ∀ r ∈ draws, (lib.e.keyEnc r.2.symmetricKey).length = lib.e.keyLen ∧ r.2.encryptedHeaderBytes.length = size := by
    intro r h
    rw [hsize]
    exact headerAnswer_sizes c hbm hcs he hw hmk (a := ⟨attributes, u, d, r.1.1, r.1.2.1, r.1.2.2⟩) hatts h0 huid had hmb (hans r h)
  have huniq : ∀ {r kb hb}, r ∈ draws → HeaderAnswer lib ⟨p, mk.pubKey⟩ ⟨attributes, u, d, r.1.1, r.1.2.1, r.1.2.2⟩ kb hb →
      kb = lib.e.keyEnc r.2.symmetricKey ∧ hb = r.2.encryptedHeaderBytes := by
    intro r kb hb hm h
    obtain ⟨atts1, uid1, ad1, h1, e1, e2, e3, e4, rfl, rfl⟩ := h
    obtain rfl := e1.unique hatts
    obtain rfl : uid1 = uid := by
      rcases e2 with ⟨m1, rfl⟩ | ⟨m1, e2⟩ <;> rcases huid with ⟨m2, rfl⟩ | ⟨m2, huid⟩
      · rfl
      · exact absurd m1 m2
      · exact absurd m2 m1
      · exact e2.unique huid
    obtain rfl : ad1 = ad := by
      rcases e3 with ⟨m1, rfl⟩ | ⟨m1, x1, e3, rfl⟩ <;> rcases had with ⟨m2, h⟩ | ⟨m2, x2, had, h⟩
      · exact h.symm
      · exact absurd m1 m2
      · exact absurd m2 m1
      · rw [h, e3.unique had]
    dsimp only at e4
    rw [hd r hm] at e4
    cases e4
    exact ⟨rfl, rfl⟩
  have hpos : 0 < size := by omega
  constructor
  · have := allSucceed_headers (S := fun _ => True) (fun _ _ _ _ _ => trivial) hk0 hk hpos hsize'
      (draws.map fun r => (hEncryptHeader lib ca ⟨attributes, u, d, r.1.1, r.1.2.1, r.1.2.2⟩, lib.e.keyEnc r.2.symmetricKey, r.2.encryptedHeaderBytes))
      (by
        intro x hx
        obtain ⟨r, hm, rfl⟩ := List.mem_map.1 hx
        refine ⟨?_, hsz r hm⟩
        rcases C47_encrypt_header (lib := lib) ht ca ⟨attributes, u, d, r.1.1, r.1.2.1, r.1.2.2⟩ with ⟨cache', kb, hb, hc', ha, hdel⟩ | ⟨hno, _⟩
        · obtain ⟨p', k'⟩ := cache'
          obtain rfl : p' = p := hc'.1.unique hc.1
          obtain ⟨x, x1, _, x2⟩ := hc.2
          obtain rfl : k' = mk.pubKey := x1.bytesArg hc'.2 x2
          obtain ⟨rfl, rfl⟩ := huniq hm ha
          exact hdel
        · exact absurd (hans r hm) (hno _ _ _ hc))
      s trivial hr hr'
    rwa [List.map_map] at this
  · intro h hh
    have := allSucceed_headers (S := fun s => s.enc.get h = some ⟨p, mk.pubKey⟩) (fun _ _ _ ho hs => by rw [ho.1]; exact hs) hk0 hk hpos hsize'
      (draws.map fun r => (hEncryptHeaderUsingCache lib h ⟨attributes, u, d, r.1.1, r.1.2.1, r.1.2.2⟩, lib.e.keyEnc r.2.symmetricKey, r.2.encryptedHeaderBytes))
      (by
        intro x hx
        obtain ⟨r, hm, rfl⟩ := List.mem_map.1 hx
        refine ⟨?_, hsz r hm⟩
        rcases C47_encrypt_header_using_cache (lib := lib) ht h ⟨p, mk.pubKey⟩ ⟨attributes, u, d, r.1.1, r.1.2.1, r.1.2.2⟩ with ⟨kb, hb, ha, hdel⟩ | ⟨hno, _⟩
        · obtain ⟨rfl, rfl⟩ := huniq hm ha
          exact hdel
        · exact absurd (hans r hm) (hno _ _))
      s hh hr hr'
    rwa [List.map_map] at this

/-- The answer of the decryption functions is the only one. -/
theorem clearHeader_deliversBoth (ht : 31 ≤ lib.t.bits) {k : InBuf} {key : DecryptionKey K QP Q} (hk : KeyDecodes lib k key) {hd : InBuf} {kb u : Bytes} {a : Option Bytes}
    (hA : ClearHeaderAnswer lib key hd kb u a) (h : Int32) :
    DeliversClearHeader (fun _ => True) (hDecryptHeader lib hd k) kb u a ∧ DeliversClearHeader (fun s => s.dec.get h = some key) (hDecryptHeaderUsingCache lib hd h) kb u a := by
  have huniq : ∀ {kb' u' a'}, ClearHeaderAnswer lib key hd kb' u' a' → kb' = kb ∧ u' = u ∧ a' = a := by
    rintro kb' u' a' ⟨x, h1, rfl, rfl, rfl⟩
    obtain ⟨y, ⟨b, h2, _, h3⟩, rfl, rfl, rfl⟩ := hA
    obtain rfl := h2.bytesArg h1 h3
    exact ⟨rfl, rfl, rfl⟩
  constructor
  · rcases C47_decrypt_header (lib := lib) ht hd k with ⟨key', kb', u', a', hk', hA', hdel⟩ | ⟨hno, _⟩
    · obtain ⟨x, x1, _, x2⟩ := hk
      obtain rfl := x1.bytesArg hk' x2
      obtain ⟨rfl, rfl, rfl⟩ := huniq hA'
      exact hdel
    · exact absurd hA (hno _ _ _ _ hk)
  · rcases C47_decrypt_header_using_cache (lib := lib) ht hd h key with ⟨kb', u', a', hA', hdel⟩ | ⟨hno, _⟩
    · obtain ⟨rfl, rfl, rfl⟩ := huniq hA'
      exact hdel
    · exact absurd hA (hno _ _ _)

/-- **C102**: the decryption of a header can be repeated any number of times with the buffers and lengths left by the call before; each time the caller reads the key, the identifier
and the additional data. -/
theorem C102_decryptions (ht : 31 ≤ lib.t.bits) {k : InBuf} {key : DecryptionKey K QP Q} (hk : KeyDecodes lib k key) {hd : InBuf} {kb u : Bytes} {a : Option Bytes}
    (hA : ClearHeaderAnswer lib key hd kb u a) (hk0 : kb ≠ []) (hkl : kb.length < 2 ^ 31) (hul : u.length < 2 ^ 31) (hal : (a.getD []).length < 2 ^ 31) (n : Nat)
    (s : FState (EncryptionCache P T) (DecryptionKey K QP Q)) (r1 : (s.mem.slots .symKey).Room kb) (r2 : (s.mem.slots .uid).Room u) (r3 : (s.mem.slots .additional).Room (a.getD [])) :
    AllSucceed (List.replicate n (hDecryptHeader lib hd k, [(.symKey, kb), (.uid, u), (.additional, a.getD [])])) s ∧
    ∀ h, s.dec.get h = some key → AllSucceed (List.replicate n (hDecryptHeaderUsingCache lib hd h, [(.symKey, kb), (.uid, u), (.additional, a.getD [])])) s :=
  ⟨allSucceed_same (fun _ _ _ _ _ => trivial) (clearHeader_deliversBoth ht hk hA 0).1 hk0 hkl hul hal n s trivial r1 (.inl r2) (.inl r3),
    fun h hh => allSucceed_same (S := fun s => s.dec.get h = some key) (fun _ _ _ ho hs => by rw [ho.2.1]; exact hs) (clearHeader_deliversBoth ht hk hA h).2 hk0 hkl hul hal n s hh r1 (.inl r2) (.inl r3)⟩

/-- **C102**: after the decryption of a first header, the decryption of a second one with the lengths left by the first succeeds exactly if the identifier of the second is not longer than
that of the first, or that of the first is empty, and likewise for the additional data.  The second outputs are those of the second header, except that what was empty in the first is
not delivered, the call succeeding nevertheless. -/
theorem C102_next_header (ht : 31 ≤ lib.t.bits) {k : InBuf} {key : DecryptionKey K QP Q} (hk : KeyDecodes lib k key) {hd1 hd2 : InBuf} {k1 k2 u1 u2 : Bytes} {a1 a2 : Option Bytes}
    (hA1 : ClearHeaderAnswer lib key hd1 k1 u1 a1) (hA2 : ClearHeaderAnswer lib key hd2 k2 u2 a2) (hkl : k1.length = k2.length) (hk0 : k1 ≠ []) (hk' : k1.length < 2 ^ 31)
    (hu1 : u1.length < 2 ^ 31) (hu2 : u2.length < 2 ^ 31) (ha1 : (a1.getD []).length < 2 ^ 31) (ha2 : (a2.getD []).length < 2 ^ 31)
    (s : FState (EncryptionCache P T) (DecryptionKey K QP Q)) (r1 : (s.mem.slots .symKey).Room k1) (r2 : (s.mem.slots .uid).Room u1) (r3 : (s.mem.slots .additional).Room (a1.getD [])) :
    ∃ s1, (hDecryptHeader lib hd1 k).run s = (.ret 0, s1) ∧
      ((((hDecryptHeader lib hd2 k).run s1).1 = .ret 0 ↔
        (u1 = [] ∨ u2.length ≤ u1.length) ∧ (a1.getD [] = [] ∨ (a2.getD []).length ≤ (a1.getD []).length))) ∧
      (((hDecryptHeader lib hd2 k).run s1).1 = .ret 0 →
        (((hDecryptHeader lib hd2 k).run s1).2.mem.slots .symKey).Holds k2 ∧
        (((hDecryptHeader lib hd2 k).run s1).2.mem.slots .uid).Holds (if u1 = [] then [] else u2) ∧
        (((hDecryptHeader lib hd2 k).run s1).2.mem.slots .additional).Holds (if a1.getD [] = [] then [] else a2.getD [])) := by
  obtain ⟨s1, g1, _, _, _, _, g2, g3, g4⟩ := second_clear_header (S := fun _ => True) (fun _ _ _ _ _ => trivial) (clearHeader_deliversBoth ht hk hA1 0).1
    (clearHeader_deliversBoth ht hk hA2 0).1 hkl hk0 hk' hu1 hu2 ha1 ha2 s trivial r1 r2 r3
  have hno : ∀ {s2 : FState (EncryptionCache P T) (DecryptionKey K QP Q)}, (hDecryptHeader lib hd2 k).run s1 = (.ret 1, s2) → ((hDecryptHeader lib hd2 k).run s1).1 ≠ .ret 0 := by
    intro s2 h h'
    rw [h] at h'
    exact absurd (Flow.ret.inj h') (by decide)
  have hiff : ((hDecryptHeader lib hd2 k).run s1).1 = .ret 0 ↔
      (u1 = [] ∨ u2.length ≤ u1.length) ∧ (a1.getD [] = [] ∨ (a2.getD []).length ≤ (a1.getD []).length) := by
    constructor
    · intro h
      have hu : u1 = [] ∨ u2.length ≤ u1.length := by
        by_contra hc
        rw [not_or] at hc
        obtain ⟨s2, h', _⟩ := g3 ⟨hc.1, by omega⟩
        exact hno h' h
      refine ⟨hu, ?_⟩
      by_contra hc
      rw [not_or] at hc
      obtain ⟨s2, h', _⟩ := g4 hu ⟨hc.1, by omega⟩
      exact hno h' h
    · intro h
      obtain ⟨s2, h', _⟩ := g2 h
      rw [h']
  refine ⟨s1, g1, hiff, fun h => ?_⟩
  obtain ⟨s2, h', x1, x2, x3⟩ := g2 (hiff.1 h)
  rw [h']
  exact ⟨x1, x2, x3⟩

/-- **C102**: the same when the key is in a cache. -/
theorem C102_next_header_using_cache (ht : 31 ≤ lib.t.bits) {k : InBuf} {key : DecryptionKey K QP Q} (hk : KeyDecodes lib k key) {hd1 hd2 : InBuf} {k1 k2 u1 u2 : Bytes}
    {a1 a2 : Option Bytes} (hA1 : ClearHeaderAnswer lib key hd1 k1 u1 a1) (hA2 : ClearHeaderAnswer lib key hd2 k2 u2 a2) (hkl : k1.length = k2.length) (hk0 : k1 ≠ [])
    (hk' : k1.length < 2 ^ 31) (hu1 : u1.length < 2 ^ 31) (hu2 : u2.length < 2 ^ 31) (ha1 : (a1.getD []).length < 2 ^ 31) (ha2 : (a2.getD []).length < 2 ^ 31) {h : Int32}
    (s : FState (EncryptionCache P T) (DecryptionKey K QP Q)) (hs : s.dec.get h = some key) (r1 : (s.mem.slots .symKey).Room k1) (r2 : (s.mem.slots .uid).Room u1)
    (r3 : (s.mem.slots .additional).Room (a1.getD [])) :
    ∃ s1, (hDecryptHeaderUsingCache lib hd1 h).run s = (.ret 0, s1) ∧
      ((((hDecryptHeaderUsingCache lib hd2 h).run s1).1 = .ret 0 ↔
        (u1 = [] ∨ u2.length ≤ u1.length) ∧ (a1.getD [] = [] ∨ (a2.getD []).length ≤ (a1.getD []).length))) ∧
      (((hDecryptHeaderUsingCache lib hd2 h).run s1).1 = .ret 0 →
        (((hDecryptHeaderUsingCache lib hd2 h).run s1).2.mem.slots .symKey).Holds k2 ∧
        (((hDecryptHeaderUsingCache lib hd2 h).run s1).2.mem.slots .uid).Holds (if u1 = [] then [] else u2) ∧
        (((hDecryptHeaderUsingCache lib hd2 h).run s1).2.mem.slots .additional).Holds (if a1.getD [] = [] then [] else a2.getD [])) := by
  obtain ⟨s1, g1, g2, g3⟩ := C102_next_header ht hk hA1 hA2 hkl hk0 hk' hu1 hu2 ha1 ha2 s r1 r2 r3
  obtain ⟨s1', e1, _, e2, _⟩ := (clearHeader_deliversBoth ht hk hA1 0).1.fits s trivial r1 (.inr r2) (.inr r3)
  obtain rfl : s1 = s1' := by rw [g1] at e1; exact (Prod.mk.inj e1).2
  refine ⟨s1, (C46_decryption hk hs hd1).trans g1, ?_⟩
  rw [C46_decryption hk (h := h) (s := s1) (by rw [e2.2.1]; exact hs)]
  exact ⟨g2, g3⟩

/-- What all functions with one output have in common: the call succeeds if the buffer is large enough, and is refused if not. -/
theorem OneOutput.step (ht : 31 ≤ lib.t.bits) {call : Prog (EncryptionCache P T) (DecryptionKey K QP Q) Int32} {b : Bytes} (h : OneOutput lib call b)
    {s : FState (EncryptionCache P T) (DecryptionKey K QP Q)} {m : Bytes} {n : Int32} (hs : s.mem.slots .out = ⟨some m, some n⟩) (h0 : 0 ≤ n.toInt) (hm : n.toInt ≤ m.length) :
    (0 < n.toInt ∧ b.length ≤ n.toInt → ∃ s', ∃ n' : Int32, call.run s = (.ret 0, s') ∧ s'.mem.slots .out = ⟨some (b ++ m.drop b.length), some n'⟩ ∧ ReportsLen n' b.length) ∧
    (¬ (0 < n.toInt ∧ b.length ≤ n.toInt) → (call.run s).1 = .ret 1) := by
  have inj : ∀ {x y : Bytes}, (pure x : Prog (EncryptionCache P T) (DecryptionKey K QP Q) Bytes) = pure y → x = y := by
    intro x y e
    have := congrFun e s
    cases this
    rfl
  have hz : n.toInt = 0 → n = 0 := fun e => Int32.toInt_inj.1 (by rw [e]; rfl)
  have loud : Delivers lib.t call .out b → (0 < n.toInt ∧ b.length ≤ n.toInt → ∃ s', ∃ n' : Int32, call.run s = (.ret 0, s') ∧
      s'.mem.slots .out = ⟨some (b ++ m.drop b.length), some n'⟩ ∧ ReportsLen n' b.length) ∧ (¬ (0 < n.toInt ∧ b.length ≤ n.toInt) → (call.run s).1 = .ret 1) := by
    intro hd
    refine ⟨fun ⟨g1, g2⟩ => ?_, fun g => ?_⟩
    · obtain ⟨s', n', e1, _, _, e2, e3⟩ := hd.fits s m n hs g1 g2 (by omega)
      exact ⟨s', n', e1, e2, e3⟩
    · by_cases g1 : 0 < n.toInt
      · obtain ⟨s', n', e1, _⟩ := hd.small s m n hs g1 (by omega)
        rw [e1]
      · obtain ⟨e, e1⟩ := hd.zero s m (by rw [hs, hz (by omega)])
        rw [e1]
  have silent : DeliversSilently lib.t call .out b → (0 < n.toInt ∧ b.length ≤ n.toInt → ∃ s', ∃ n' : Int32, call.run s = (.ret 0, s') ∧
      s'.mem.slots .out = ⟨some (b ++ m.drop b.length), some n'⟩ ∧ ReportsLen n' b.length) ∧ (¬ (0 < n.toInt ∧ b.length ≤ n.toInt) → (call.run s).1 = .ret 1) := by
    intro hd
    refine ⟨fun ⟨g1, g2⟩ => ?_, fun g => ?_⟩
    · obtain ⟨s', n', e1, _, _, e2, e3⟩ := hd.fits s m n hs g1 g2 (by omega)
      exact ⟨s', n', e1, e2, e3⟩
    · by_cases g1 : 0 < n.toInt
      · obtain ⟨⟨e, e1⟩, _⟩ := hd.small s m n hs g1 (by omega)
        rw [e1]
      · obtain ⟨e, e1⟩ := hd.zero s m (by rw [hs, hz (by omega)])
        rw [e1]
  cases h with
  | masterKeys h =>
    rcases C47_master_keys (lib := lib) ht _ _ _ with ⟨b', hb, hd⟩ | ⟨hno, _⟩
    · obtain rfl := inj ((masterKeysPayload_iff.2 hb).symm.trans (masterKeysPayload_iff.2 h))
      exact loud hd
    · exact absurd h (hno _)
  | userKey h =>
    rcases C47_user_key (lib := lib) ht _ _ _ _ with ⟨b', hb, hd⟩ | ⟨hno, _⟩
    · obtain rfl := inj ((userKeyPayload_iff.2 hb).symm.trans (userKeyPayload_iff.2 h))
      exact loud hd
    · exact absurd h (hno _)
  | rotation h =>
    rcases C47_rotation (lib := lib) ht _ _ with ⟨b', hb, hd⟩ | ⟨hno, _⟩
    · obtain rfl := inj ((rotatePayload_iff.2 hb).symm.trans (rotatePayload_iff.2 h))
      exact loud hd
    · exact absurd h (hno _)
  | encryptBlock h =>
    rcases C47_encrypt_block (lib := lib) ht _ _ with ⟨b', hb, hd⟩ | ⟨hno, _⟩
    · obtain rfl := inj ((encryptBlockPayload_iff.2 hb).symm.trans (encryptBlockPayload_iff.2 h))
      exact silent hd
    · exact absurd h (hno _)
  | decryptBlock h =>
    rcases C47_decrypt_block (lib := lib) ht _ with ⟨b', hb, hd⟩ | ⟨hno, _⟩
    · obtain rfl := inj ((decryptBlockPayload_iff.2 hb).symm.trans (decryptBlockPayload_iff.2 h))
      exact silent hd
    · exact absurd h (hno _)

/-- **C102**: calls of the functions with one output (generation of keys, rotation, encryption and decryption of blocks, in any order), one after the other with the same buffer and the
length left by the call before, succeed exactly if each output is not longer than the one before and only the last is empty. -/
theorem C102_one_output (ht : 31 ≤ lib.t.bits) (calls : List (Prog (EncryptionCache P T) (DecryptionKey K QP Q) Int32 × Bytes))
    (h : ∀ c ∈ calls, OneOutput lib c.1 c.2 ∧ c.2.length < 2 ^ 31) (s : FState (EncryptionCache P T) (DecryptionKey K QP Q)) (m : Bytes) (n : Int32)
    (hs : s.mem.slots .out = ⟨some m, some n⟩) (h0 : 0 ≤ n.toInt) (hm : n.toInt ≤ m.length) :
    AllSucceed (calls.map fun c => (c.1, [(.out, c.2)])) s ↔ Shrinks n.toInt.toNat (calls.map Prod.snd) := by
  induction calls generalizing s m n with
  | nil => exact Iff.rfl
  | cons c rest ih =>
    obtain ⟨call, b⟩ := c
    obtain ⟨ho, hb⟩ := h _ List.mem_cons_self
    dsimp only at ho hb
    obtain ⟨g1, g2⟩ := ho.step ht hs h0 hm
    show (∃ s', _ ∧ _ ∧ AllSucceed (rest.map fun c => (c.1, [(.out, c.2)])) s') ↔ 0 < n.toInt.toNat ∧ b.length ≤ n.toInt.toNat ∧ Shrinks b.length (rest.map Prod.snd)
    by_cases hc : 0 < n.toInt ∧ b.length ≤ n.toInt
    · obtain ⟨s', n', e1, e2, e3⟩ := g1 hc
      have e3 := e3 hb
      have := ih (fun c hc => h c (List.mem_cons_of_mem _ hc)) s' (b ++ m.drop b.length) n' e2 (by omega) (by
        rw [e3, List.length_append]
        omega)
      rw [e3, Int.toNat_natCast] at this
      rw [← this]
      constructor
      · rintro ⟨s'', f1, _, f2⟩
        obtain rfl : s' = s'' := by rw [e1] at f1; exact (Prod.mk.inj f1).2
        exact ⟨by omega, by omega, f2⟩
      · rintro ⟨_, _, f2⟩
        refine ⟨s', e1, ?_, f2⟩
        intro x hx
        simp only [List.mem_cons, List.not_mem_nil, or_false] at hx
        subst hx
        exact ⟨_, n', e2, by omega, by rw [e3]; simp⟩
    · constructor
      · rintro ⟨s', f1, _⟩
        have := g2 hc
        rw [f1] at this
        cases this
      · rintro ⟨f1, f2, _⟩
        exact absurd ⟨by omega, by omega⟩ hc

end

/-! ### Concrete cases -/

namespace RepoFfi

theorem zeros_roomFor {b n : Nat} (h0 : 0 < b) (h1 : b < 2 ^ 31) (h2 : n ≤ b) : (zeros b).RoomFor n := by
  obtain ⟨m, k, e1, e2, e3, e4⟩ := zeros_room h0 h1 (x := List.replicate n 0) (by simpa using h2)
  rw [List.length_replicate] at e3 e4
  exact ⟨m, k, e1, e2, e3, e4⟩

/-- Headers with and without metadata, for a key that opens them. -/
theorem demo_headers : ∃ (kb : Bytes) (key : DecryptionKey Demo.F Demo.F Demo.F), KeyDecodes demo (pointer kb) key ∧ ∀ md : Metadata, Demo.symmetric.Keeps md → md.uid.length < 100 →
    (md.additionalData.getD []).length < 100 → ∃ hb k, ClearHeaderAnswer demo key (pointer hb) (Demo.symmetric.keyEnc k) md.uid md.additionalData := by
  obtain ⟨mk, key, pb, kb, h1, h2, h3, h4, h5, h6, h7⟩ := files (ap := RepoDemo.topMkgFin) (by decide +kernel) (by decide +kernel)
  have hw := reachable_wf RepoDemo.policy_reachable
  have hkd : (userKeyCodec .debug64 Demo.codecs (bls Demo.curveF)).dec kb = .ok key := by
    obtain ⟨b, b1, _, b2⟩ := C25_user_key_round_trip (t := .debug64) Demo.codecs_lawful Demo.curveF h2.obtained h7
    obtain rfl : kb = b := by rw [h5] at b1; exact Res.ok.inj b1
    have := b2 []
    rw [List.append_nil] at this
    exact this (by have : 2 ^ 31 ≤ Target.debug64.modulus := by decide
                   omega)
  have hkn : kb ≠ [] := by
    rintro rfl
    simp [userKeyCodec] at hkd
  refine ⟨kb, key, ⟨kb, pointer_isIn h6, hkn, hkd⟩, fun md hmd hu ha => ?_⟩
  obtain ⟨ct, hct⟩ := engineEncrypt_ok Demo.curveF h1 RepoDemo.policy_reachable (by decide) (atts := RepoHybrid.attributes) (by decide +kernel) (by decide) .debug64 5 7
  obtain ⟨mb, m1, m2⟩ := hmd
  have hml : mb.length < 1000 := by
    obtain rfl := Res.ok.inj m1
    simp only [List.length_append, be32, List.length_cons, List.length_nil]
    omega
  obtain ⟨h, hh⟩ := C35_header_encrypts (md := some md) (nonce := Demo.nonce) Demo.curveF Demo.codecs_lawful Demo.symmetric_lawful hw h1 hct (by decide) (by
    rintro m hm
    obtain rfl : md = m := by simpa using hm
    exact ⟨mb, m1, by omega, fun k => ⟨_, rfl⟩⟩)
  have hl := (C36_length Demo.curveF Demo.codecs_lawful Demo.symmetric_lawful hw h1 (by decide) hh).2 md rfl mb m1
  have hd := C35_header_round_trip (t' := .debug64) Demo.curveF (by decide) Demo.codecs_lawful Demo.symmetric_lawful hw h1 h2 (md := some md) (by
    rintro m hm
    obtain rfl : md = m := by simpa using hm
    exact ⟨mb, m1, m2⟩) hh (by decide +kernel)
  have hl' : h.encryptedHeaderBytes.length < 2 ^ 31 ∧ 0 < h.encryptedHeaderBytes.length := by
    have e1 : RepoHybrid.attributes.length = 2 := rfl
    have e2 : Demo.symmetric.nonceLen = 12 := rfl
    omega
  exact ⟨h.encryptedHeaderBytes, h.symmetricKey, _, ⟨_, pointer_isIn hl'.1, List.length_pos_iff.1 hl'.2, hd⟩, rfl, rfl, rfl⟩

/-- The buffers of the tests of the repository: any number of encryptions, with any random values. -/
example : ∃ ca : EncCacheArgs, ∃ H : Demo.F × Demo.F × Demo.SymNonce → EncryptedHeader Demo.SymKey, ∀ (l : List (Demo.F × Demo.F × Demo.SymNonce))
    (st : Process Demo.F Demo.F Demo.F Demo.F Demo.F),
    AllSucceed (l.map fun d => (hEncryptHeader demo ca ⟨some [97, 0], pointer [1, 2, 3, 4, 5, 6, 7, 8, 9], pointer [10, 11, 12, 13, 14], d.1, d.2.1, d.2.2⟩,
      [(.symKey, Demo.symmetric.keyEnc (H d).symmetricKey), (.header, (H d).encryptedHeaderBytes)])) { st with mem := encryptionMemory } := by
  obtain ⟨mk, key, pb, kb, h1, _, h3, h4, _⟩ := files (ap := RepoDemo.topMkgFin) (by decide +kernel) (by decide +kernel)
  have hw := reachable_wf RepoDemo.policy_reachable
  obtain ⟨_, hpub, _⟩ := C24_generated_keys_round_trip (t := .debug64) Demo.codecs_lawful Demo.curveF h1 (by decide) (by decide)
  obtain ⟨b, b1, b3, b2⟩ := hpub
  obtain rfl : pb = b := by rw [h3] at b1; exact Res.ok.inj b1
  have hpd : (pubKeyCodec .debug64 Demo.codecs).dec pb = .ok mk.pubKey := by
    have := b2 []
    rw [List.append_nil] at this
    exact this (by have : 2 ^ 31 ≤ Target.debug64.modulus := by decide
                   omega)
  have hpn : pb ≠ [] := by
    rintro rfl
    simp [pubKeyCodec, Demo.codecs_lawful.gt.len] at b3
  have hH : ∀ d : Demo.F × Demo.F × Demo.SymNonce, ∃ h,
      encryptHybridHeader Demo.symmetric (bls Demo.curveF) Demo.codecs .debug64 RepoDemo.policy mk.pubKey RepoHybrid.attributes (some RepoHybrid.metaData) d.1 d.2.1 d.2.2 = .ok h := by
    intro d
    obtain ⟨ct, hct⟩ := engineEncrypt_ok Demo.curveF h1 RepoDemo.policy_reachable (by decide) (atts := RepoHybrid.attributes) (by decide +kernel) (by decide) .debug64 d.1 d.2.1
    exact C35_header_encrypts Demo.curveF Demo.codecs_lawful Demo.symmetric_lawful hw h1 hct (by decide) (by
      rintro m hm
      obtain rfl : RepoHybrid.metaData = m := by simpa using hm
      exact ⟨[0, 0, 0, 9, 1, 2, 3, 4, 5, 6, 7, 8, 9, 10, 11, 12, 13, 14], by decide, by decide, fun k => ⟨_, rfl⟩⟩)
  choose H hH using hH
  refine ⟨⟨some [112, 0], pointer pb⟩, H, fun l st => ?_⟩
  have hc := (C102_encryptions (lib := demo) (ca := ⟨some [112, 0], pointer pb⟩) (attributes := some [97, 0]) (by decide) Demo.curveF rfl Demo.codecs_lawful Demo.symmetric_lawful
    (by decide) (by decide) hw h1
    ⟨cstring_arg (x := [112]) (by decide) (by decide +kernel) rfl, pb, pointer_isIn h4, hpn, hpd⟩
    (cstring_arg (x := [97]) (a := RepoHybrid.attributes) (by decide) (by decide +kernel) rfl) (by decide)
    (uid := [1, 2, 3, 4, 5, 6, 7, 8, 9]) (ad := some [10, 11, 12, 13, 14]) (.inr ⟨by rintro (h | h) <;> revert h <;> decide, pointer_isIn (by decide)⟩)
    (.inr ⟨by rintro (h | h) <;> revert h <;> decide, _, pointer_isIn (by decide), rfl⟩)
    (mb := [0, 0, 0, 9, 1, 2, 3, 4, 5, 6, 7, 8, 9, 10, 11, 12, 13, 14]) (by decide) (size := 454) rfl (by decide) (l.map fun d => (d, H d)) (by
      intro r hr
      obtain ⟨d, _, rfl⟩ := List.mem_map.1 hr
      exact hH d) { st with mem := encryptionMemory } (zeros_roomFor (by decide) (by decide) (by decide)) (zeros_roomFor (by decide) (by decide) (by decide))).1
  rwa [List.map_map] at hc

/-- The buffers of the tests of the repository: any number of decryptions of one header. -/
example : ∃ (hd k : InBuf) (kb : Bytes), ∀ n (st : Process Demo.F Demo.F Demo.F Demo.F Demo.F),
    AllSucceed (List.replicate n (hDecryptHeader demo hd k, [(.symKey, kb), (.uid, [1, 2, 3, 4, 5, 6, 7, 8, 9]), (.additional, [10, 11, 12, 13, 14])])) { st with mem := decryptionMemory } := by
  obtain ⟨kb, key, hk, h⟩ := demo_headers
  obtain ⟨hb, k, hA⟩ := h RepoHybrid.metaData ⟨[0, 0, 0, 9, 1, 2, 3, 4, 5, 6, 7, 8, 9, 10, 11, 12, 13, 14], by decide, by decide⟩ (by decide) (by decide)
  have hl : (Demo.symmetric.keyEnc k).length = 32 := k.2
  exact ⟨pointer hb, pointer kb, _, fun n st => (C102_decryptions (lib := demo) (by decide) hk hA (by intro h0; rw [h0] at hl; cases hl) (by omega) (by decide) (by decide) n _
    (zeros_room (by decide) (by decide) (by omega)) (zeros_room (by decide) (by decide) (by decide)) (zeros_room (by decide) (by decide) (by decide))).1⟩

/-- A header without identifier and additional data, then one with both: the second call succeeds, and the caller reads neither.  In the other order it succeeds and all is read.  After a
header with a shorter identifier the call fails. -/
example : ∃ (none some long k : InBuf), ∀ st : Process Demo.F Demo.F Demo.F Demo.F Demo.F,
    (∃ s1, (hDecryptHeader demo none k).run { st with mem := decryptionMemory } = (.ret 0, s1) ∧ ((hDecryptHeader demo some k).run s1).1 = .ret 0 ∧
      (((hDecryptHeader demo some k).run s1).2.mem.slots .uid).Holds [] ∧ (((hDecryptHeader demo some k).run s1).2.mem.slots .additional).Holds []) ∧
    (∃ s1, (hDecryptHeader demo some k).run { st with mem := decryptionMemory } = (.ret 0, s1) ∧ ((hDecryptHeader demo none k).run s1).1 = .ret 0) ∧
    (∃ s1, (hDecryptHeader demo some k).run { st with mem := decryptionMemory } = (.ret 0, s1) ∧ ((hDecryptHeader demo long k).run s1).1 ≠ .ret 0) := by
  obtain ⟨kb, key, hk, h⟩ := demo_headers
  obtain ⟨hb0, k0, hA0⟩ := h ⟨[], none⟩ ⟨[0, 0, 0, 0], by decide, by decide⟩ (by decide) (by decide)
  obtain ⟨hb1, k1, hA1⟩ := h RepoHybrid.metaData ⟨[0, 0, 0, 9, 1, 2, 3, 4, 5, 6, 7, 8, 9, 10, 11, 12, 13, 14], by decide, by decide⟩ (by decide) (by decide)
  obtain ⟨hb2, k2, hA2⟩ := h ⟨[1, 2, 3, 4, 5, 6, 7, 8, 9, 10], none⟩ ⟨[0, 0, 0, 10, 1, 2, 3, 4, 5, 6, 7, 8, 9, 10], by decide, by decide⟩ (by decide) (by decide)
  have hl : ∀ k, (Demo.symmetric.keyEnc k).length = 32 := fun k => k.2
  have hne : ∀ k, Demo.symmetric.keyEnc k ≠ [] := fun k h0 => by have := hl k; rw [h0] at this; cases this
  refine ⟨pointer hb0, pointer hb1, pointer hb2, pointer kb, fun st => ⟨?_, ?_, ?_⟩⟩
  · obtain ⟨s1, g1, g2, g3⟩ := C102_next_header (lib := demo) (by decide) hk hA0 hA1 ((hl _).trans (hl _).symm) (hne _) (by have := hl k0; omega) (by decide) (by decide) (by decide) (by decide)
      { st with mem := decryptionMemory } (zeros_room (by decide) (by decide) (by have := hl k0; omega)) (zeros_room (by decide) (by decide) (by decide))
      (zeros_room (by decide) (by decide) (by decide))
    have := g2.2 ⟨.inl rfl, .inl rfl⟩
    exact ⟨s1, g1, this, (g3 this).2⟩
  · obtain ⟨s1, g1, g2, _⟩ := C102_next_header (lib := demo) (by decide) hk hA1 hA0 ((hl _).trans (hl _).symm) (hne _) (by have := hl k1; omega) (by decide) (by decide) (by decide) (by decide)
      { st with mem := decryptionMemory } (zeros_room (by decide) (by decide) (by have := hl k1; omega)) (zeros_room (by decide) (by decide) (by decide))
      (zeros_room (by decide) (by decide) (by decide))
    exact ⟨s1, g1, g2.2 ⟨.inr (by decide), .inr (by decide)⟩⟩
  · obtain ⟨s1, g1, g2, _⟩ := C102_next_header (lib := demo) (by decide) hk hA1 hA2 ((hl _).trans (hl _).symm) (hne _) (by have := hl k1; omega) (by decide) (by decide) (by decide) (by decide)
      { st with mem := decryptionMemory } (zeros_room (by decide) (by decide) (by have := hl k1; omega)) (zeros_room (by decide) (by decide) (by decide))
      (zeros_room (by decide) (by decide) (by decide))
    exact ⟨s1, g1, fun h => absurd (g2.1 h).1 (by decide)⟩

/-- The same with a cache: a header with identifier and additional data, then one with a longer identifier. -/
example : ∃ (some' long : InBuf) (key : DecryptionKey Demo.F Demo.F Demo.F), ∀ st : Process Demo.F Demo.F Demo.F Demo.F Demo.F,
    ∃ s1, (hDecryptHeaderUsingCache demo some' 7).run { st with mem := decryptionMemory, dec := st.dec.insert 7 key } = (.ret 0, s1) ∧
      ((hDecryptHeaderUsingCache demo long 7).run s1).1 ≠ .ret 0 := by
  obtain ⟨kb, key, hk, h⟩ := demo_headers
  obtain ⟨hb1, k1, hA1⟩ := h RepoHybrid.metaData ⟨[0, 0, 0, 9, 1, 2, 3, 4, 5, 6, 7, 8, 9, 10, 11, 12, 13, 14], by decide, by decide⟩ (by decide) (by decide)
  obtain ⟨hb2, k2, hA2⟩ := h ⟨[1, 2, 3, 4, 5, 6, 7, 8, 9, 10], none⟩ ⟨[0, 0, 0, 10, 1, 2, 3, 4, 5, 6, 7, 8, 9, 10], by decide, by decide⟩ (by decide) (by decide)
  have hl : ∀ k, (Demo.symmetric.keyEnc k).length = 32 := fun k => k.2
  refine ⟨pointer hb1, pointer hb2, key, fun st => ?_⟩
  obtain ⟨s1, g1, g2, _⟩ := C102_next_header_using_cache (lib := demo) (by decide) hk hA1 hA2 ((hl _).trans (hl _).symm)
    (fun h0 => by have := hl k1; rw [h0] at this; cases this) (by have := hl k1; omega) (by decide) (by decide) (by decide) (by decide)
    (h := 7) { st with mem := decryptionMemory, dec := st.dec.insert 7 key } (by simp [Registry.get, Registry.insert, hget_hinsert])
    (zeros_room (by decide) (by decide) (by have := hl k1; omega)) (zeros_room (by decide) (by decide) (by decide))
    (zeros_room (by decide) (by decide) (by decide))
  exact ⟨s1, g1, fun h => absurd (g2.1 h).1 (by decide)⟩

end RepoFfi

namespace Demo

/-- With a buffer of 5000 bytes: the master keys, then a user key, then a rotated policy (shorter and shorter) succeed, any number of times the last one; but not a user key after the
rotation. -/
example (n : Nat) :
    AllSucceed ([(hGenerateMasterKeys ffi (some [1, 0]) drawsF 3, [(.out, masterB)]), (hGenerateUserPrivateKey ffi (input privB) (some [1, 0]) (some [1, 0]) drawsF, [(.out, userB)])] ++
      List.replicate n (hRotateAttributes ffi (some [3, 0]) (some [1, 0]), [(.out, [2])])) (state fun _ => buf 5000 5000) ∧
    ¬ AllSucceed [(hRotateAttributes ffi (some [3, 0]) (some [1, 0]), [(.out, [2])]), (hGenerateUserPrivateKey ffi (input privB) (some [1, 0]) (some [1, 0]) drawsF, [(.out, userB)])]
      (state fun _ => buf 5000 5000) := by
  have hr : RotationAnswer ffi (some [3, 0]) (some [1, 0]) [2] := ⟨policy, [Demo.hr], rotated, policy_arg, hr_arg, rotations, rfl⟩
  have e : (5000 : Int32).toInt = 5000 := by decide
  have l1 : userB.length ≤ masterB.length ∧ 1 < userB.length ∧ masterB.length ≤ 5000 := by
    refine ⟨?_, ?_, ?_⟩ <;> decide +kernel
  constructor
  · have := (C102_one_output (lib := ffi) (by decide) ([(hGenerateMasterKeys ffi (some [1, 0]) drawsF 3, masterB),
        (hGenerateUserPrivateKey ffi (input privB) (some [1, 0]) (some [1, 0]) drawsF, userB)] ++ List.replicate n (hRotateAttributes ffi (some [3, 0]) (some [1, 0]), [2])) (by
        intro c hc
        simp only [List.cons_append, List.nil_append, List.mem_cons, List.mem_replicate] at hc
        rcases hc with rfl | rfl | ⟨_, rfl⟩
        · exact ⟨.masterKeys master_answer, by dsimp only; omega⟩
        · exact ⟨.userKey user_answer, by dsimp only; omega⟩
        · exact ⟨.rotation hr, by decide⟩) (state fun _ => buf 5000 5000) (List.replicate 5000 0) 5000 rfl (by decide) (by rw [List.length_replicate]; decide)).2 (by
      have hs : ∀ k, 0 < k → Shrinks k (List.replicate n [2]) := by
        induction n with
        | zero => exact fun _ _ => trivial
        | succ n ih => exact fun k hk => ⟨hk, hk, ih 1 Nat.one_pos⟩
      simp only [List.map_cons, List.map_replicate, List.cons_append, List.nil_append, Shrinks]
      exact ⟨by rw [e]; decide, by rw [e]; exact l1.2.2, by omega, l1.1, hs _ (by omega)⟩)
    simpa only [List.map_append, List.map_cons, List.map_nil, List.map_replicate] using this
  · intro h
    have := (C102_one_output (lib := ffi) (by decide) [(hRotateAttributes ffi (some [3, 0]) (some [1, 0]), [2]),
        (hGenerateUserPrivateKey ffi (input privB) (some [1, 0]) (some [1, 0]) drawsF, userB)] (by
        intro c hc
        simp only [List.mem_cons, List.not_mem_nil, or_false] at hc
        rcases hc with rfl | rfl
        · exact ⟨.rotation hr, by decide⟩
        · exact ⟨.userKey user_answer, by dsimp only; omega⟩) (state fun _ => buf 5000 5000) (List.replicate 5000 0) 5000 rfl (by decide) (by rw [List.length_replicate]; decide)).1 h
    have := this.2.2.2.1
    simp only [List.length_cons, List.length_nil] at this
    omega

end Demo

end Abe

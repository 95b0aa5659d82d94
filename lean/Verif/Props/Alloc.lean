import Verif.Model.Alloc
import Verif.Props.Builds

/-!
# Memory requested while decoding

Properties C32 and C70.
-/

namespace Abe

set_option linter.unusedSectionVars false

namespace Tr
variable {α β : Type}

theorem bind_res (x : Tr α) (f : α → Tr β) : (x >>= f).res = (x.res >>= fun a => (f a).res) := by
  show (Tr.bind x f).res = _
  unfold Tr.bind
  cases x.res <;> rfl

theorem lift_res (x : Out α) : (lift x).res = x := rfl

theorem request_res (r : Req) : (request r).res = .ok () := rfl

theorem pure_res (a : α) : (pure a : Tr α).res = .ok a := rfl

theorem map_res (f : α → Tr β) (l : List α) : (Tr.map f l).res = mapRes (fun a => (f a).res) l := by
  induction l with
  | nil => rfl
  | cons a l ih => simp only [Tr.map, bind_res, ih, mapRes, pure_res]

theorem mem_bind {x : Tr α} {f : α → Tr β} {r : Req} :
    r ∈ (x >>= f).reqs ↔ r ∈ x.reqs ∨ ∃ a, x.res = .ok a ∧ r ∈ (f a).reqs := by
  show r ∈ (Tr.bind x f).reqs ↔ _
  unfold Tr.bind
  cases x.res <;> simp

theorem mem_lift {x : Out α} {r : Req} : ¬ r ∈ (lift x).reqs := by simp [lift]

theorem mem_pure {a : α} {r : Req} : ¬ r ∈ (pure a : Tr α).reqs := by
  show ¬ r ∈ ([] : List Req)
  simp

theorem mem_request {r r' : Req} : r ∈ (request r').reqs ↔ r = r' := by simp [request]

theorem mem_map {f : α → Tr β} {l : List α} {r : Req} (h : r ∈ (Tr.map f l).reqs) : ∃ a ∈ l, r ∈ (f a).reqs := by
  induction l with
  | nil => exact absurd h mem_pure
  | cons a l ih =>
    simp only [Tr.map, mem_bind, mem_pure, and_false, exists_false, or_false] at h
    rcases h with h | ⟨_, _, h⟩
    · exact ⟨a, by simp, h⟩
    · obtain ⟨a', h1, h2⟩ := ih h
      exact ⟨a', by simp [h1], h2⟩

end Tr

open Tr

section
variable {α : Type} {t : Target} {c : Codec α} {n : Nat}

theorem vecDecT_res (b : Bytes) : (vecDecT t c b).res = vecDec t c b := by
  unfold vecDecT vecDec
  split
  · rfl
  · simp only [bind_res, lift_res, request_res, pure_res, Res.ok_bind]

theorem mspHeaderT_res (b : Bytes) : (mspHeaderT t b).res = mspHeader t b := by
  unfold mspHeaderT mspHeader
  split
  · rfl
  · simp only [bind_res, lift_res]
    congr; funext b0
    congr; funext b1
    congr; funext r4
    congr; funext need
    split
    · rfl
    · simp only [bind_res, lift_res, request_res, pure_res, Res.ok_bind]

theorem mspDecT_res (b : Bytes) : (mspDecT t c b).res = mspDec t c b := by
  unfold mspDecT mspDec
  simp only [bind_res, lift_res, request_res, mspHeaderT_res, Res.ok_bind]
  congr; funext x
  congr; funext base
  congr; funext s
  congr; funext first
  congr; funext rc
  congr; funext total
  congr; funext need
  split
  · rfl
  · simp only [bind_res, lift_res, request_res, pure_res, map_res, Res.ok_bind]

theorem vecDecT_reqs {b : Bytes} {r : Req} (hr : r ∈ (vecDecT t c b).reqs) :
    b ≠ [] ∧ ∃ x, vecHeader t c b = .ok (r.count, x) ∧ r = .elements r.count := by
  unfold vecDecT at hr
  split at hr
  · exact absurd hr mem_pure
  · rename_i hne
    refine ⟨by simpa using hne, ?_⟩
    simp only [mem_bind, mem_lift, false_or, mem_pure, and_false, exists_false, or_false, mem_request, lift_res] at hr
    obtain ⟨⟨len, x⟩, h1, h2⟩ := hr
    dsimp only at h2
    subst h2
    exact ⟨x, h1, rfl⟩

/-- What is known after the header of a vector. -/
theorem vecHeader_ok (h : c.Fixed n) {b : Bytes} (hB : InSlice t b) {len : Nat} {x : α} (hd : vecHeader t c b = .ok (len, x)) :
    4 < b.length ∧ len = (ofBe32 b).toNat ∧ len < 2 ^ 32 - 1 ∧ c.dec (b.drop 4) = .ok x ∧
      (0 < len → ¬ (t.checked = true ∧ t.modulus ≤ 4 + (len - 1) * n) ∧ (4 + (len - 1) * n) % t.modulus < b.length) := by
  have h32 : 2 ^ 32 ≤ t.modulus := Nat.pow_le_pow_right (by decide) hB.bits
  unfold vecHeader at hd
  split at hd
  · simp at hd
  · rw [slice_zero (by omega), Res.ok_bind] at hd
    dsimp only at hd
    rw [ofBe32_take (by omega)] at hd
    generalize (ofBe32 b).toNat = N at *
    split at hd
    · simp at hd
    · rw [sliceFrom_ok (by omega), Res.ok_bind] at hd
      obtain ⟨y, hy, hd⟩ := Res.bind_eq_ok.1 hd
      rcases Nat.eq_zero_or_pos N with h0 | h0
      · obtain ⟨_, _, hd⟩ := Res.bind_eq_ok.1 hd
        obtain ⟨_, _, hd⟩ := Res.bind_eq_ok.1 hd
        obtain ⟨_, _, hd⟩ := Res.bind_eq_ok.1 hd
        split at hd
        · simp at hd
        · simp only [Res.ok.injEq, Prod.mk.injEq] at hd
          obtain ⟨rfl, rfl⟩ := hd
          exact ⟨by omega, rfl, by omega, hy, by omega⟩
      · rw [usub_ok (show 1 ≤ N from h0), Res.ok_bind, uaddmul _ _ _ _ (by omega), h.len] at hd
        split at hd
        · simp at hd
        · rename_i hov
          split at hd
          · simp at hd
          · simp only [Res.ok.injEq, Prod.mk.injEq] at hd
            obtain ⟨rfl, rfl⟩ := hd
            exact ⟨by omega, rfl, by omega, hy, fun _ => ⟨hov, by omega⟩⟩

theorem mspHeaderT_reqs {b : Bytes} (hB : InSlice t b) {r : Req} (hr : r ∈ (mspHeaderT t b).reqs) :
    8 ≤ b.length ∧ ¬ (t.checked = true ∧ t.modulus ≤ 8 + 4 * (ofBe32 b).toNat) ∧
      (8 + 4 * (ofBe32 b).toNat) % t.modulus ≤ b.length ∧
      (r = .labels (ofBe32 b).toNat ∨ r = .index (ofBe32 b).toNat) := by
  have h32 : 2 ^ 32 ≤ t.modulus := Nat.pow_le_pow_right (by decide) hB.bits
  unfold mspHeaderT at hr
  split at hr
  · exact absurd hr mem_lift
  · simp only [mem_bind, mem_lift, false_or, lift_res] at hr
    obtain ⟨b0, h0, b1, h1, r4, h2, need, h3, hr⟩ := hr
    rw [slice_zero (by omega)] at h0
    simp only [Res.ok.injEq] at h0
    subst h0
    rw [ofBe32_take (by omega)] at h2 hr
    generalize (ofBe32 b).toNat = R at *
    have hcalc : (do let m ← (t.umul 4 R : Out Nat); let s ← t.uadd 8 m; Res.ok s) = .ok need := by
      rw [h2, Res.ok_bind, h3]; rfl
    rw [uaddmul _ _ _ _ (by omega)] at hcalc
    split at hcalc
    · simp at hcalc
    · rename_i hov
      simp only [Res.ok.injEq] at hcalc
      split at hr
      · exact absurd hr mem_lift
      · rename_i hlt
        rw [hcalc]
        refine ⟨by omega, hov, by omega, ?_⟩
        simp only [mem_bind, mem_lift, mem_pure, mem_request, and_false, exists_false, or_false] at hr
        rcases hr with hr | ⟨_, _, hr⟩
        · exact Or.inl hr
        · exact Or.inr hr

theorem mspDecT_reqs {b : Bytes} (hB : InSlice t b) {r : Req} (hr : r ∈ (mspDecT t c b).reqs) :
    8 ≤ b.length ∧ ¬ (t.checked = true ∧ t.modulus ≤ 8 + 4 * (ofBe32 b).toNat) ∧
      (8 + 4 * (ofBe32 b).toNat) % t.modulus ≤ b.length ∧
      (r = .labels (ofBe32 b).toNat ∨ r = .index (ofBe32 b).toNat ∨
        ((∃ x, mspHeader t b = .ok x) ∧ (r = .rows (ofBe32 b).toNat ∨ r = .entries (ofBe32 (b.drop 4)).toNat))) := by
  unfold mspDecT at hr
  rw [mem_bind] at hr
  rcases hr with hr | ⟨⟨R, C, us, map⟩, hh, hr⟩
  · obtain ⟨h1, h2, h3, h4⟩ := mspHeaderT_reqs hB hr
    exact ⟨h1, h2, h3, h4.imp_right Or.inl⟩
  · have hh' := hh
    rw [mspHeaderT_res] at hh
    have h8 : 8 ≤ b.length := by
      by_contra h8
      unfold mspHeader at hh
      rw [if_pos (by omega)] at hh
      simp at hh
    have hany := mspHeader_any (t := t) h8 (hB.add_lt (by decide))
    have hlab : Req.labels (ofBe32 b).toNat ∈ (mspHeaderT t b).reqs ∨ ¬ ∃ x, (mspHeaderT t b).res = .ok x := by
      by_cases hx : ∃ x, (mspHeaderT t b).res = .ok x
      · left
        unfold mspHeaderT
        unfold mspHeaderT at hx
        rw [if_neg (by omega)] at hx ⊢
        simp only [bind_res, lift_res] at hx
        simp only [mem_bind, mem_lift, false_or, lift_res]
        obtain ⟨x, hx⟩ := hx
        obtain ⟨b0, h0, hx⟩ := Res.bind_eq_ok.1 hx
        obtain ⟨b1, h1, hx⟩ := Res.bind_eq_ok.1 hx
        obtain ⟨r4, h2, hx⟩ := Res.bind_eq_ok.1 hx
        obtain ⟨need, h3, hx⟩ := Res.bind_eq_ok.1 hx
        refine ⟨b0, h0, b1, h1, r4, h2, need, h3, ?_⟩
        split at hx
        · simp [lift] at hx
        · rename_i hlt
          rw [if_neg hlt]
          rw [slice_zero (by omega)] at h0
          simp only [Res.ok.injEq] at h0
          subst h0
          rw [ofBe32_take (by omega)]
          simp [mem_bind, mem_request]
      · exact Or.inr hx
    rcases hlab with hlab | hlab
    swap
    · exact absurd ⟨_, hh'⟩ hlab
    obtain ⟨h1, h2, h3, _⟩ := mspHeaderT_reqs hB hlab
    refine ⟨h1, h2, h3, Or.inr (Or.inr ⟨⟨_, hh⟩, ?_⟩)⟩
    have hRC : R = (ofBe32 b).toNat ∧ C = (ofBe32 (b.drop 4)).toNat := by
      rw [hany] at hh
      split at hh
      · simp at hh
      · split at hh
        · simp at hh
        · split at hh
          · split at hh
            · simp only [Res.ok.injEq, Prod.mk.injEq] at hh
              exact ⟨hh.1.symm, hh.2.1.symm⟩
            · simp at hh
          · split at hh <;> simp at hh
    rw [← hRC.1, ← hRC.2]
    dsimp only at hr
    simp only [mem_bind, mem_lift, mem_request, false_or, lift_res, request_res] at hr
    rcases hr with hr | ⟨_, _, hr | ⟨_, _, base, _, s, _, first, _, rc, _, total, _, need, _, hr⟩⟩
    · exact Or.inl hr
    · exact Or.inr hr
    · right
      split at hr
      · exact absurd hr mem_lift
      · simp only [mem_bind, mem_lift, mem_pure, false_or, and_false, exists_false, or_false] at hr
        obtain ⟨_, _, hr⟩ := hr
        obtain ⟨_, _, hr⟩ := mem_map hr
        simp only [mem_bind, mem_lift, mem_request, and_false, exists_false, or_false] at hr
        exact hr

/-- **C32**, vectors: in builds with overflow checks and on targets of at least 64 bits, the capacity requested while decoding is
such that that many elements fit in the input, up to one element. -/
theorem C32_vec_capacity (h : c.Fixed n) (hn : n ≤ 2 ^ 30) (b : Bytes) (hB : InSlice t b) (ht : t.checked = true ∨ 64 ≤ t.bits) :
    ∀ r ∈ (vecDecT t c b).reqs, r.count ≤ b.length ∧ 4 + (r.count - 1) * n < b.length := by
  intro r hr
  obtain ⟨_, x, hd, _⟩ := vecDecT_reqs hr
  obtain ⟨h1, _, h2, _, h3⟩ := vecHeader_ok h hB hd
  have hpos := h.pos
  generalize r.count = N at *
  rcases Nat.eq_zero_or_pos N with h0 | h0
  · subst h0
    exact ⟨by omega, by omega⟩
  · obtain ⟨h4, h5⟩ := h3 h0
    have hlt : 4 + (N - 1) * n < t.modulus := by
      rcases ht with ht | ht
      · by_contra hge
        exact h4 ⟨ht, by omega⟩
      · have h64 := two64_le ht
        have hmul : (N - 1) * n ≤ 2 ^ 32 * 2 ^ 30 := Nat.mul_le_mul (by omega) hn
        omega
    rw [Nat.mod_eq_of_lt hlt] at h5
    have : N - 1 ≤ (N - 1) * n := Nat.le_mul_of_pos_right _ hpos
    omega

/-- **C32**, matrices: in builds with overflow checks and on targets of at least 64 bits, the numbers of labels, index entries and
rows requested are bounded by the input size. -/
theorem C32_matrix_row_capacity (b : Bytes) (hB : InSlice t b) (ht : t.checked = true ∨ 64 ≤ t.bits) :
    ∀ r ∈ (mspDecT t c b).reqs, (∀ k, r ≠ .entries k) → 8 + 4 * r.count ≤ b.length := by
  intro r hr hne
  obtain ⟨h1, h2, h3, h4⟩ := mspDecT_reqs hB hr
  have hlt := (ofBe32 b).toNat_lt
  have hfit : 8 + 4 * (ofBe32 b).toNat < t.modulus := by
    rcases ht with ht | ht
    · by_contra hge
      exact h2 ⟨ht, by omega⟩
    · have h64 := two64_le ht
      omega
  rw [Nat.mod_eq_of_lt hfit] at h3
  rcases h4 with rfl | rfl | ⟨_, rfl | rfl⟩
  · exact h3
  · exact h3
  · exact h3
  · exact absurd rfl (hne _)

/-- **C32**, refutation for matrices: on every target, eight bytes make the decoder request any number of columns up to 2^32 - 1. -/
theorem C32_matrix_column_capacity_refuted (ht : 32 ≤ t.bits) (w : UInt32) :
    ∃ b : Bytes, b.length = 8 ∧ Req.entries w.toNat ∈ (mspDecT t c b).reqs := by
  refine ⟨be32 0 ++ be32 w, by simp [be32_length], ?_⟩
  have hR : ofBe32 (be32 0 ++ be32 w) = 0 := ofBe32_be32 0 _
  have hC : ofBe32 ((be32 0 ++ be32 w).drop 4) = w := by
    rw [List.drop_left' (be32_length _)]
    have := ofBe32_be32 w []
    rwa [List.append_nil] at this
  have h32 : 2 ^ 32 ≤ t.modulus := Nat.pow_le_pow_right (by decide) ht
  have hh := mspHeader_spec (t := t) (bytes := be32 0 ++ be32 w) (by simp [be32_length]) (by rw [hR, UInt32.toNat_zero]; omega)
    (by rw [hR]; simp [be32_length]) (us := []) (by rw [hR]; rfl)
  rw [if_pos (by simp), hR, hC] at hh
  unfold mspDecT
  rw [mem_bind]
  right
  refine ⟨_, (mspHeaderT_res _).trans hh, ?_⟩
  simp [mem_bind, mem_request, request_res]

/-- **C32**, refutation for vectors on the wasm build without overflow checks: the check on the count wraps, so that 36 bytes
holding one scalar make the decoder request 2^27 + 1 scalars. -/
theorem C32_vec_capacity_wasm_refuted (x : ZMod blsOrder) :
    ∃ b : Bytes, b.length = 36 ∧ Req.elements 134217729 ∈ (vecDecT .release32 (scalarCodec blsOrder) b).reqs := by
  have hF := C21_scalar.1
  obtain ⟨bx, h1, h2⟩ := hF.enc x
  have hlen : (be32 (2 ^ 27 + 1) ++ bx).length = 36 := by simp [be32_length, h2]
  refine ⟨be32 (2 ^ 27 + 1) ++ bx, hlen, ?_⟩
  have hr := hF.round x bx [] h1
  rw [List.append_nil] at hr
  have hh : vecHeader .release32 (scalarCodec blsOrder) (be32 (2 ^ 27 + 1) ++ bx) = .ok (134217729, x) := by
    unfold vecHeader
    rw [if_neg (by omega), slice_zero (by omega), Res.ok_bind]
    dsimp only
    rw [ofBe32_take (by omega), ofBe32_be32, sliceFrom_ok (by omega), Res.ok_bind, List.drop_left' (be32_length _), hr, Res.ok_bind, hF.len, hlen]
    have e0 : ((2 ^ 27 + 1 : UInt32)).toNat = 134217729 := by decide +kernel
    have e1 : (Target.release32.usub 134217729 1 : Out Nat) = .ok 134217728 := by decide +kernel
    have e2 : (Target.release32.umul 134217728 32 : Out Nat) = .ok 0 := by decide +kernel
    have e3 : (Target.release32.uadd 4 0 : Out Nat) = .ok 4 := by decide +kernel
    rw [e0, if_neg (by decide), e1, Res.ok_bind, e2, Res.ok_bind, e3, Res.ok_bind, if_neg (by decide)]
  unfold vecDecT
  rw [if_neg (by simp [be32]), mem_bind]
  right
  refine ⟨_, (lift_res _).trans hh, ?_⟩
  simp [mem_bind, mem_request]

/-- Three labels on 16 bytes request three labels. -/
example : (vecDecT .release64 u32Codec [0, 0, 0, 3, 0, 0, 0, 7, 0, 0, 1, 44, 0, 1, 17, 112]).reqs = [.elements 3] ∧
    ∀ r ∈ (vecDecT .release64 u32Codec [0, 0, 0, 3, 0, 0, 0, 7, 0, 0, 1, 44, 0, 1, 17, 112]).reqs, r.count ≤ 16 :=
  ⟨by decide +kernel, fun r hr => (C32_vec_capacity u32Codec_fixed (by decide) _ ⟨by decide, by decide⟩ (Or.inr (by decide)) r hr).1⟩

/-- Two rows of two labels: two labels, two index entries, two rows, and twice two entries. -/
example : (mspDecT .release32 u32Codec (be32 2 ++ be32 2 ++ be32 7 ++ be32 9 ++ be32 1 ++ be32 2 ++ be32 3 ++ be32 4)).reqs =
    [.labels 2, .index 2, .rows 2, .entries 2, .entries 2] := by decide +kernel

end

section
variable {K G1 G2 G3 Gt : Type} {t : Target} {cs : Codecs K G2 G3 Gt}

theorem privKeyDecT_res (b : Bytes) : (privKeyDecT t cs b).res = (privKeyCodec t cs).dec b := by
  simp only [privKeyDecT, privKeyCodec, bind_res, lift_res, pure_res, vecDecT_res]

theorem pubKeyDecT_res (b : Bytes) : (pubKeyDecT t cs b).res = (pubKeyCodec t cs).dec b := by
  simp only [pubKeyDecT, pubKeyCodec, bind_res, lift_res, pure_res, vecDecT_res]

theorem delKeyDecT_res (b : Bytes) : (delKeyDecT t cs b).res = (delKeyCodec t cs).dec b := by
  simp only [delKeyDecT, delKeyCodec, bind_res, pure_res, vecDecT_res]

theorem userKeyDecT_res (bm : BilinearMap K G1 G2 G3 Gt) (b : Bytes) : (userKeyDecT t cs bm b).res = (userKeyCodec t cs bm).dec b := by
  simp only [userKeyDecT, userKeyCodec]
  split
  · rfl
  · simp only [bind_res, lift_res, pure_res, vecDecT_res, mspDecT_res]

theorem cipherTextDecT_res (b : Bytes) : (cipherTextDecT t cs b).res = (cipherTextCodec t cs).dec b := by
  simp only [cipherTextDecT, cipherTextCodec, bind_res, lift_res, pure_res, vecDecT_res]

/-- **C32**, the recording of requests does not change the results. -/
theorem C32_results (bm : BilinearMap K G1 G2 G3 Gt) (b : Bytes) :
    (privKeyDecT t cs b).res = (privKeyCodec t cs).dec b ∧ (pubKeyDecT t cs b).res = (pubKeyCodec t cs).dec b ∧
    (delKeyDecT t cs b).res = (delKeyCodec t cs).dec b ∧ (userKeyDecT t cs bm b).res = (userKeyCodec t cs bm).dec b ∧
    (cipherTextDecT t cs b).res = (cipherTextCodec t cs).dec b :=
  ⟨privKeyDecT_res b, pubKeyDecT_res b, delKeyDecT_res b, userKeyDecT_res bm b, cipherTextDecT_res b⟩

theorem vecDecT_accepted {α : Type} {c : Codec α} {n : Nat} (h : c.Fixed n) (hn : n ≤ 2 ^ 30) (h4 : 4 ≤ n) {b : Bytes} (hB : InSlice t b) {l : List α}
    (hd : vecDec t c b = .ok l) : ∀ r ∈ (vecDecT t c b).reqs, 4 * r.count ≤ b.length := by
  intro r hr
  obtain ⟨hne, x, hh, _⟩ := vecDecT_reqs hr
  obtain ⟨_, hN, _⟩ := vecHeader_ok h hB hh
  obtain ⟨_, hlen, hle⟩ := vecDec_consumed h hne (hB.add_lt hn) hd
  by_cases hz : ofBe32 b = 0
  · rw [hN, hz]; simp
  · have := (vecDec_canon h hne (hB.add_lt hn) (Or.inl hz) hd).2.1
    rw [hN, ← this]
    have : 4 * l.length ≤ n * l.length := Nat.mul_le_mul_right _ h4
    omega

theorem mspDecT_accepted {α : Type} {c : Codec α} {n : Nat} (h : c.Fixed n) (h4 : 4 ≤ n) {b : Bytes} (hB : InSlice t b) {m : Msp α}
    (hd : mspDec t c b = .ok m) : ∀ r ∈ (mspDecT t c b).reqs, 4 * r.count ≤ b.length := by
  intro r hr
  obtain ⟨_, _, _, hr⟩ := mspDecT_reqs hB hr
  obtain ⟨_, h2, _, rows, h3, _⟩ := (mspDec_ok_iff h (hB.add_lt (by decide))).1 hd
  have := (mspRead_fits h h2 h3).2
  have hmul : 4 * (ofBe32 (b.drop 4)).toNat ≤ (ofBe32 (b.drop 4)).toNat * n := by
    rw [Nat.mul_comm]; exact Nat.mul_le_mul_left _ h4
  rcases hr with rfl | rfl | ⟨_, rfl | rfl⟩ <;> simp only [Req.count] <;> omega

/-- **C32**, accepted inputs: on every target, decoding an accepted key or ciphertext of `b.length` bytes never requests more than
`b.length / 4` elements at once. -/
theorem C32_accepted (h : cs.Lawful) (bm : BilinearMap K G1 G2 G3 Gt) (b : Bytes) (hB : InSlice t b) :
    (∀ k, (privKeyCodec t cs).dec b = .ok k → ∀ r ∈ (privKeyDecT t cs b).reqs, 4 * r.count ≤ b.length) ∧
    (∀ k, (pubKeyCodec t cs).dec b = .ok k → ∀ r ∈ (pubKeyDecT t cs b).reqs, 4 * r.count ≤ b.length) ∧
    (∀ k, (delKeyCodec t cs).dec b = .ok k → ∀ r ∈ (delKeyDecT t cs b).reqs, 4 * r.count ≤ b.length) ∧
    (∀ k, (userKeyCodec t cs bm).dec b = .ok k → ∀ r ∈ (userKeyDecT t cs bm b).reqs, 4 * r.count ≤ b.length) ∧
    (∀ x, (cipherTextCodec t cs).dec b = .ok x → ∀ r ∈ (cipherTextDecT t cs b).reqs, 4 * r.count ≤ b.length) := by
  refine ⟨fun k hk r hr => ?_, fun k hk r hr => ?_, fun k hk r hr => ?_, fun k hk r hr => ?_, fun k hk r hr => ?_⟩
  · simp only [privKeyCodec] at hk
    obtain ⟨l, hl, _⟩ := Res.bind_eq_ok.1 hk
    simp only [privKeyDecT, mem_bind, mem_lift, mem_pure, and_false, exists_false, or_false] at hr
    exact vecDecT_accepted h.scalar (by decide) (by decide) hB hl r hr
  · simp only [pubKeyCodec] at hk
    obtain ⟨l, hl, _⟩ := Res.bind_eq_ok.1 hk
    simp only [pubKeyDecT, mem_bind, mem_lift, mem_pure, and_false, exists_false, or_false] at hr
    exact vecDecT_accepted h.g2 (by decide) (by decide) hB hl r hr
  · simp only [delKeyCodec] at hk
    obtain ⟨l, hl, _⟩ := Res.bind_eq_ok.1 hk
    simp only [delKeyDecT, mem_bind, mem_pure, and_false, exists_false, or_false] at hr
    exact vecDecT_accepted h.g3 (by decide) (by decide) hB hl r hr
  · simp only [userKeyCodec] at hk
    unfold userKeyDecT at hr
    split at hk
    · simp at hk
    · rename_i hne
      rw [if_neg hne] at hr
      obtain ⟨l, hl, hk⟩ := Res.bind_eq_ok.1 hk
      obtain ⟨s, hs, hk⟩ := Res.bind_eq_ok.1 hk
      obtain ⟨m, hm, _⟩ := Res.bind_eq_ok.1 hk
      simp only [mem_bind, mem_lift, mem_pure, false_or, and_false, exists_false, or_false, lift_res, vecDecT_res] at hr
      rcases hr with hr | ⟨l', hl', s', hs', hr⟩
      · exact vecDecT_accepted h.g3 (by decide) (by decide) hB hl r hr
      · rw [hl] at hl'
        simp only [Res.ok.injEq] at hl'
        subst hl'
        rw [hs] at hs'
        simp only [Res.ok.injEq] at hs'
        subst hs'
        obtain ⟨_, rfl⟩ := sliceFrom_inv hs
        have := mspDecT_accepted h.scalar (by decide) (hB.drop _) hm r hr
        rw [List.length_drop] at this
        omega
  · simp only [cipherTextCodec] at hk
    obtain ⟨l, hl, hk⟩ := Res.bind_eq_ok.1 hk
    obtain ⟨s, hs, hk⟩ := Res.bind_eq_ok.1 hk
    obtain ⟨m, hm, _⟩ := Res.bind_eq_ok.1 hk
    simp only [cipherTextDecT, mem_bind, mem_lift, mem_pure, false_or, and_false, exists_false, or_false, lift_res, vecDecT_res] at hr
    rcases hr with hr | ⟨l', hl', s', hs', hr⟩
    · exact vecDecT_accepted u32Codec_fixed (by decide) (by decide) hB hl r hr
    · rw [hl] at hl'
      simp only [Res.ok.injEq] at hl'
      subst hl'
      rw [hs] at hs'
      simp only [Res.ok.injEq] at hs'
      subst hs'
      obtain ⟨_, rfl⟩ := sliceFrom_inv hs
      have := vecDecT_accepted h.g2 (by decide) (by decide) (hB.drop _) hm r hr
      rw [List.length_drop] at this
      omega

/-- An accepted ciphertext requests one label and one element. -/
example : (cipherTextDecT .release32 Demo.codecs (be32 1 ++ be32 4 ++ be32 1 ++ leBytes 48 5 ++ leBytes 288 3)).reqs = [.elements 1, .elements 1] ∧
    ∀ r ∈ (cipherTextDecT .release32 Demo.codecs (be32 1 ++ be32 4 ++ be32 1 ++ leBytes 48 5 ++ leBytes 288 3)).reqs, 4 * r.count ≤ 348 := by
  obtain ⟨x, hx⟩ : ∃ x, (cipherTextCodec .release32 Demo.codecs).dec (be32 1 ++ be32 4 ++ be32 1 ++ leBytes 48 5 ++ leBytes 288 3) = .ok x :=
    Demo.exists_of_isOk (by decide +kernel)
  refine ⟨by decide +kernel, fun r hr => ?_⟩
  have hlen : (be32 1 ++ be32 4 ++ be32 1 ++ leBytes 48 5 ++ leBytes 288 3 : Bytes).length = 348 := by decide +kernel
  rw [← hlen]
  exact (C32_accepted Demo.codecs_lawful (bls Demo.curveF) _ ⟨by decide, by decide +kernel⟩).2.2.2.2 x hx r hr

/-! ### C70 -/

theorem vecDecT_count {α : Type} {c : Codec α} {n : Nat} (h : c.Fixed n) {b : Bytes} (hB : InSlice t b) {r : Req} (hr : r ∈ (vecDecT t c b).reqs) :
    r.count < 2 ^ 32 := by
  obtain ⟨_, x, hh, _⟩ := vecDecT_reqs hr
  obtain ⟨_, _, h1, _⟩ := vecHeader_ok h hB hh
  omega

theorem mspDecT_count {α : Type} {c : Codec α} {b : Bytes} (hB : InSlice t b) {r : Req} (hr : r ∈ (mspDecT t c b).reqs) :
    r.count < 2 ^ 32 := by
  obtain ⟨_, _, _, hr⟩ := mspDecT_reqs hB hr
  have h1 := (ofBe32 b).toNat_lt
  have h2 := (ofBe32 (b.drop 4)).toNat_lt
  rcases hr with rfl | rfl | ⟨_, rfl | rfl⟩ <;> simp only [Req.count] <;> omega

theorem run_eq {α : Type} (ht : 64 ≤ t.bits) {size : Req → Nat} (hs : ∀ r, size r ≤ 2 ^ 30) {x : Tr α} (hx : ∀ r ∈ x.reqs, r.count < 2 ^ 32) :
    Tr.run t size x = x.res := by
  unfold Tr.run
  rw [if_neg]
  simp only [List.any_eq_true, decide_eq_true_eq, not_exists, not_and, not_le]
  intro r hr
  have h64 := two64_le ht
  have : r.count * size r ≤ (2 ^ 32 - 1) * 2 ^ 30 := Nat.mul_le_mul (by have := hx r hr; omega) (hs r)
  omega

/-- **C70.** On targets of at least 64 bits no request made while decoding a key or a ciphertext overflows `isize::MAX`, whatever the input,
as long as no element occupies more than 2^30 bytes. -/
theorem C70_no_capacity_overflow (ht : 64 ≤ t.bits) (h : cs.Lawful) (bm : BilinearMap K G1 G2 G3 Gt) {size : Req → Nat}
    (hs : ∀ r, size r ≤ 2 ^ 30) (b : Bytes) (hB : InSlice t b) :
    Tr.run t size (privKeyDecT t cs b) = (privKeyCodec t cs).dec b ∧ Tr.run t size (pubKeyDecT t cs b) = (pubKeyCodec t cs).dec b ∧
    Tr.run t size (delKeyDecT t cs b) = (delKeyCodec t cs).dec b ∧ Tr.run t size (userKeyDecT t cs bm b) = (userKeyCodec t cs bm).dec b ∧
    Tr.run t size (cipherTextDecT t cs b) = (cipherTextCodec t cs).dec b := by
  refine ⟨(run_eq ht hs fun r hr => ?_).trans (privKeyDecT_res b), (run_eq ht hs fun r hr => ?_).trans (pubKeyDecT_res b),
    (run_eq ht hs fun r hr => ?_).trans (delKeyDecT_res b), (run_eq ht hs fun r hr => ?_).trans (userKeyDecT_res bm b),
    (run_eq ht hs fun r hr => ?_).trans (cipherTextDecT_res b)⟩
  · simp only [privKeyDecT, mem_bind, mem_lift, mem_pure, and_false, exists_false, or_false] at hr
    exact vecDecT_count h.scalar hB hr
  · simp only [pubKeyDecT, mem_bind, mem_lift, mem_pure, and_false, exists_false, or_false] at hr
    exact vecDecT_count h.g2 hB hr
  · simp only [delKeyDecT, mem_bind, mem_pure, and_false, exists_false, or_false] at hr
    exact vecDecT_count h.g3 hB hr
  · unfold userKeyDecT at hr
    split at hr
    · exact absurd hr mem_lift
    · simp only [mem_bind, mem_lift, mem_pure, false_or, and_false, exists_false, or_false, lift_res] at hr
      rcases hr with hr | ⟨_, _, s, hs, hr⟩
      · exact vecDecT_count h.g3 hB hr
      · obtain ⟨_, rfl⟩ := sliceFrom_inv hs
        exact mspDecT_count (hB.drop _) hr
  · simp only [cipherTextDecT, mem_bind, mem_lift, mem_pure, false_or, and_false, exists_false, or_false, lift_res] at hr
    rcases hr with hr | ⟨_, _, s, hs, hr⟩
    · exact vecDecT_count u32Codec_fixed hB hr
    · obtain ⟨_, rfl⟩ := sliceFrom_inv hs
      exact vecDecT_count h.g2 (hB.drop _) hr

/-- **C70** on 32-bit targets, refutation: with scalars of 32 bytes in memory, any group element followed by four zero bytes and any number of
columns of at least 2^26 is a user key of 108 bytes whose decoding panics because of the requested capacity, with or without overflow checks;
the same bytes are refused with an error when memory is not an issue. -/
theorem C70_wasm_refuted (ht : t.bits = 32) (h : cs.Lawful) (bm : BilinearMap K G1 G2 G3 Gt) {size : Req → Nat}
    (hs : ∀ k, size (.entries k) = 32) (x : G3) (w : UInt32) (hw : 2 ^ 26 ≤ w.toNat) :
    ∃ b : Bytes, b.length = 108 ∧ Tr.run t size (userKeyDecT t cs bm b) = .panic ∧ ∃ e, (userKeyCodec t cs bm).dec b = .err e := by
  obtain ⟨bx, h1, h2⟩ := h.g3.enc x
  have hM : t.modulus = 2 ^ 32 := by unfold Target.modulus; rw [ht]
  have hv : vecEnc cs.g3 [x] = .ok (be32 1 ++ bx) := by simp [vecEnc, u32TryFrom, mapRes, h1]
  have hvl : vecLen cs.g3 [x] = 100 := by rw [vecLen_eq h.g3 (by simp)]; rfl
  have hd := vecDec_round (t := t) h.g3 (by simp) (by simp) hv (be32 0 ++ be32 w) (by
    rw [List.length_append, be32_length, h2, hM]; decide)
  have hR : ofBe32 (be32 0 ++ be32 w) = 0 := ofBe32_be32 0 _
  have hC : ofBe32 ((be32 0 ++ be32 w).drop 4) = w := by
    rw [List.drop_left' (be32_length _)]
    have := ofBe32_be32 w []
    rwa [List.append_nil] at this
  have hh := mspHeader_spec (t := t) (bytes := be32 0 ++ be32 w) (by simp [be32_length]) (by rw [hR, UInt32.toNat_zero, hM]; decide)
    (by rw [hR]; simp [be32_length]) (us := []) (by rw [hR]; rfl)
  rw [if_pos (by simp), hR, hC] at hh
  have hslice : (sliceFrom (be32 1 ++ bx ++ (be32 0 ++ be32 w)) 100 : Out Bytes) = .ok (be32 0 ++ be32 w) := by
    rw [sliceFrom_ok (by simp [be32_length, h2]), List.drop_left' (by simp [be32_length, h2])]
  refine ⟨be32 1 ++ bx ++ (be32 0 ++ be32 w), by simp [be32_length, h2], ?_, ?_⟩
  · unfold Tr.run
    rw [if_pos]
    rw [List.any_eq_true]
    refine ⟨.entries w.toNat, ?_, ?_⟩
    · unfold userKeyDecT
      rw [if_neg (by simp [be32])]
      simp only [mem_bind, vecDecT_res, lift_res, hd]
      right
      refine ⟨_, rfl, Or.inr ⟨_, by rw [hvl]; exact hslice, Or.inl ?_⟩⟩
      unfold mspDecT
      rw [mem_bind]
      right
      refine ⟨_, (mspHeaderT_res _).trans hh, ?_⟩
      simp [mem_bind, mem_request, request_res]
    · rw [decide_eq_true_eq, hs, hM, Req.count]
      omega
  · obtain ⟨e, he⟩ := h.scalar.short [] (by decide)
    refine ⟨e, ?_⟩
    simp only [userKeyCodec]
    rw [if_neg (by simp [be32]), hd, Res.ok_bind, hvl, hslice, Res.ok_bind]
    unfold mspDec
    have hb : mspBase t 0 = .ok 8 := by
      unfold mspBase
      rw [umul_ok (by rw [hM]; decide), Res.ok_bind, uadd_ok (by rw [hM]; decide)]
    rw [hh]
    simp only [Res.ok_bind, UInt32.toNat_zero, hb]
    rw [sliceFrom_ok (by simp [be32_length]), Res.ok_bind, List.drop_of_length_le (by simp [be32_length]), he]
    rfl

/-- The sizes on a 64-bit target: scalars of 32 bytes, affine points of 104 and 200 bytes, labels of 4, index entries of 16, rows of 24. -/
example : Tr.run .release64 (fun | .elements _ => 200 | .labels _ => 4 | .index _ => 16 | .rows _ => 24 | .entries _ => 32)
      (userKeyDecT .release64 Demo.codecs (bls Demo.curveF) (be32 1 ++ leBytes 96 7 ++ be32 0 ++ be32 67108864)) ≠ .panic := by
  rw [(C70_no_capacity_overflow (t := .release64) (by decide) Demo.codecs_lawful (bls Demo.curveF)
    (by intro r; cases r <;> simp) _ ⟨by decide, by decide +kernel⟩).2.2.2.1]
  exact (C68_release (t := .release64) Demo.codecs_lawful (bls Demo.curveF) rfl _ ⟨by decide, by decide +kernel⟩).2.2.2.2 (by decide)

/-- On 32-bit targets. -/
example : ∃ b : Bytes, b.length = 108 ∧
    Tr.run .debug32 (fun | .elements _ => 200 | .labels _ => 4 | .index _ => 8 | .rows _ => 12 | .entries _ => 32)
      (userKeyDecT .debug32 Demo.codecs (bls Demo.curveF) b) = .panic ∧ ∃ e, (userKeyCodec .debug32 Demo.codecs (bls Demo.curveF)).dec b = .err e :=
  C70_wasm_refuted rfl Demo.codecs_lawful (bls Demo.curveF) (fun _ => rfl) 7 67108864 (by decide)

end

end Abe

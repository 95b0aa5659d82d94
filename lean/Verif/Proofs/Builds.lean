import Verif.Proofs.Codec

/-!
# Decoding on every target

The vector and matrix decoders on an arbitrary target of at least 32 bits, with or without overflow checks, for inputs
that fit in a Rust slice (at most `isize::MAX` bytes).  The size checks of the code can wrap around; the elements are
nevertheless read in order, so that a wrapped check cannot make a decoder accept an input it should refuse.
-/

namespace Abe

set_option linter.unusedSectionVars false

variable {α β : Type} {t : Target} {c : Codec α} {n : Nat}

/-- `a + p * q` on `usize`. -/
theorem uaddmul {ε : Type} (a p q : Nat) (k : Nat → Res ε β) (ha : a < t.modulus) :
    (do let m ← (t.umul p q : Res ε Nat); let s ← t.uadd a m; k s) =
      if t.checked = true ∧ t.modulus ≤ a + p * q then .panic else k ((a + p * q) % t.modulus) := by
  unfold Target.umul Target.uadd
  by_cases h1 : p * q < t.modulus
  · rw [if_pos h1, Res.ok_bind]
    by_cases h2 : a + p * q < t.modulus
    · rw [if_pos h2, Res.ok_bind, if_neg (by omega), Nat.mod_eq_of_lt h2]
    · rw [if_neg h2]
      by_cases hc : t.checked = true
      · rw [if_pos hc, if_pos ⟨hc, by omega⟩]; rfl
      · rw [if_neg hc, if_neg (by tauto), Res.ok_bind]
  · rw [if_neg h1]
    by_cases hc : t.checked = true
    · rw [if_pos hc, if_pos ⟨hc, by omega⟩]; rfl
    · rw [if_neg hc, if_neg (by tauto), Res.ok_bind]
      have hm : (a + p * q) % t.modulus = (a + p * q % t.modulus) % t.modulus := by
        rw [Nat.add_mod, Nat.mod_eq_of_lt ha]
      split
      · rename_i h2
        rw [Res.ok_bind, hm, Nat.mod_eq_of_lt h2]
      · rw [Res.ok_bind, hm]

/-- `a + p * q * r` on `usize`. -/
theorem uaddmul3 {ε : Type} (a p q r : Nat) (k : Nat → Res ε β) (ha : a < t.modulus) (hr : 0 < r) :
    (do let m ← (t.umul p q : Res ε Nat); let m' ← t.umul m r; let s ← t.uadd a m'; k s) =
      if t.checked = true ∧ t.modulus ≤ a + p * q * r then .panic else k ((a + p * q * r) % t.modulus) := by
  by_cases h1 : p * q < t.modulus
  · rw [umul_ok h1, Res.ok_bind, uaddmul _ _ _ _ ha]
  · have hle : p * q ≤ p * q * r := Nat.le_mul_of_pos_right _ hr
    by_cases hc : t.checked = true
    · rw [if_pos ⟨hc, by omega⟩]
      unfold Target.umul
      rw [if_neg h1, if_pos hc]; rfl
    · have : (t.umul p q : Res ε Nat) = .ok (p * q % t.modulus) := by
        unfold Target.umul; rw [if_neg h1, if_neg hc]
      rw [this, Res.ok_bind, uaddmul _ _ _ _ ha, if_neg (by tauto), if_neg (by tauto)]
      congr 1
      conv_rhs => rw [Nat.add_mod, Nat.mul_mod]
      conv_lhs => rw [Nat.add_mod, Nat.mul_mod, Nat.mod_mod]

theorem dec_long (h : c.Fixed n) {b : Bytes} {o : Nat} {x : α} (ho : o ≤ b.length) (hd : c.dec (b.drop o) = .ok x) :
    o + n ≤ b.length := by
  by_contra hlt
  obtain ⟨e, he⟩ := h.short (b.drop o) (by rw [List.length_drop]; omega)
  rw [he] at hd; simp at hd

/-- Reads in order: only the offsets inside the input matter. -/
theorem mapRes_readSeq (h : c.Fixed n) {b : Bytes} {o k : Nat} {f : Nat → Out α} (ho : o ≤ b.length)
    (hf : ∀ i, o + i * n ≤ b.length → f i = c.dec (b.drop (o + i * n))) :
    mapRes f (List.range k) = readSeq c n b o k := by
  induction k generalizing o f with
  | zero => rfl
  | succ k ih =>
    rw [readSeq_succ, sliceFrom_ok ho, Res.ok_bind, List.range_succ_eq_map]
    simp only [mapRes, mapRes_map]
    have h0 := hf 0 (by omega)
    rw [Nat.zero_mul, Nat.add_zero] at h0
    rw [h0]
    cases hd : c.dec (b.drop o) with
    | panic => rfl
    | err e => rfl
    | ok x =>
      have := dec_long h ho hd
      simp only [Res.ok_bind]
      rw [ih (o := o + n) (f := fun a => f a.succ) this]
      intro i hi
      have e : o + (i + 1) * n = o + n + i * n := by ring
      rw [Nat.succ_eq_add_one, hf (i + 1) (by omega), e]

theorem mapRes_readRows (h : c.Fixed n) {b : Bytes} {o w k : Nat} {f : Nat → Out (List α)} (ho : o ≤ b.length)
    (hf : ∀ r, o + r * (w * n) ≤ b.length → f r = readSeq c n b (o + r * (w * n)) w) :
    mapRes f (List.range k) = readRows c n b o w k := by
  induction k generalizing o f with
  | zero => rfl
  | succ k ih =>
    rw [readRows_succ, List.range_succ_eq_map]
    simp only [mapRes, mapRes_map]
    have h0 := hf 0 (by omega)
    rw [Nat.zero_mul, Nat.add_zero] at h0
    rw [h0]
    cases hd : readSeq c n b o w with
    | panic => rfl
    | err e => rfl
    | ok x =>
      have := (readSeq_inv h ho hd).2.1
      simp only [Res.ok_bind]
      rw [ih (o := o + w * n) (f := fun a => f a.succ) this]
      intro i hi
      have e : o + (i + 1) * (w * n) = o + w * n + i * (w * n) := by ring
      rw [Nat.succ_eq_add_one, hf (i + 1) (by omega), e]

/-! ### Vectors -/

/-- `vecDec` on a long enough input with a non-zero count, on every target. -/
theorem vecDec_any (h : c.Fixed n) {b : Bytes} (hlen : 4 < b.length) (hz : ofBe32 b ≠ 0) (hB : b.length < t.modulus) :
    vecDec t c b =
      if (ofBe32 b).toNat = 2 ^ 32 - 1 then .err (.deserialization "deserializing element failed. Data altered?")
      else (do
        let x ← c.dec (b.drop 4)
        if t.checked = true ∧ t.modulus ≤ 4 + ((ofBe32 b).toNat - 1) * n then .panic
        else if b.length ≤ (4 + ((ofBe32 b).toNat - 1) * n) % t.modulus then .err (.deserialization "deserializing element failed. Data altered?")
        else (do
          let rest ← readSeq c n b (4 + n) ((ofBe32 b).toNat - 1)
          .ok (x :: rest))) := by
  have hlt := (ofBe32 b).toNat_lt
  have hpos : 1 ≤ (ofBe32 b).toNat := by
    rw [Nat.one_le_iff_ne_zero]; intro h0; exact hz (UInt32.toNat_inj.1 h0)
  unfold vecDec vecHeader
  rw [if_neg (by cases b <;> simp at hlen ⊢), if_neg (by omega), slice_zero (by omega), Res.ok_bind, ofBe32_take (by omega)]
  dsimp only
  by_cases hmax : (ofBe32 b).toNat = 2 ^ 32 - 1
  · rw [if_pos (by omega), if_pos hmax]; rfl
  · rw [if_neg (by omega), if_neg hmax, sliceFrom_ok (by omega), Res.ok_bind]
    cases hd : c.dec (b.drop 4) with
    | panic => exact absurd hd (h.total _)
    | err e => rfl
    | ok x =>
      have hx := dec_long h (by omega) hd
      simp only [Res.ok_bind, h.len]
      generalize hN : (ofBe32 b).toNat = N at *
      rw [usub_ok hpos, Res.ok_bind, uaddmul _ _ _ _ (by omega)]
      split
      · rfl
      · by_cases hs : b.length ≤ (4 + (N - 1) * n) % t.modulus
        · rw [if_pos hs, if_pos hs]; rfl
        · rw [if_neg (by omega), if_neg hs, Res.ok_bind]
          dsimp only
          congr 1
          rw [List.range'_eq_map_range, mapRes_map]
          apply mapRes_readSeq h hx
          intro i hi
          have e : (1 + i) * n = n + i * n := by ring
          unfold vecItem
          rw [umul_ok (by omega), Res.ok_bind, uadd_ok (by omega), Res.ok_bind, e, ← Nat.add_assoc, sliceFrom_ok hi, Res.ok_bind]

theorem vecDec_panic_iff (h : c.Fixed n) {b : Bytes} (hB : b.length + n < t.modulus) :
    vecDec t c b = .panic ↔ VecPanics t c n b := by
  unfold VecPanics
  by_cases hlen : 4 < b.length
  · by_cases hz : ofBe32 b = 0
    · rcases vecDec_zero h ⟨hlen, hz⟩ hB with ⟨e, hd, he⟩ | ⟨x, hd, he⟩
      · rw [he, hd]; simp
      · rw [he, hd]
        cases hc : t.checked with
        | true => simp [hlen, hz]
        | false =>
          simp only [Bool.false_eq_true, if_false, false_and, iff_false]
          split <;> simp
    · rw [vecDec_any h hlen hz (by omega)]
      split
      · rename_i hm; simp [hm]
      · rename_i hm
        cases hd : c.dec (b.drop 4) with
        | panic => exact absurd hd (h.total _)
        | err e => simp
        | ok x =>
          have hx := dec_long h (by omega) hd
          rw [Res.ok_bind]
          by_cases hov : t.checked = true ∧ t.modulus ≤ 4 + ((ofBe32 b).toNat - 1) * n
          · rw [if_pos hov]
            simp only [hov.1, hlen, hov.2, ne_eq, hm, not_false_eq_true, Res.ok.injEq, exists_eq', or_true, and_self]
          · rw [if_neg hov]
            have : ¬ (t.checked = true ∧ 4 < b.length ∧ (ofBe32 b).toNat ≠ 2 ^ 32 - 1 ∧ (∃ x_1, Res.ok (ε := FormatErr) x = .ok x_1) ∧
                (ofBe32 b = 0 ∨ t.modulus ≤ 4 + ((ofBe32 b).toNat - 1) * n)) := by
              rintro ⟨h1, _, _, _, h2 | h2⟩
              · exact hz h2
              · exact hov ⟨h1, h2⟩
            refine ⟨fun hp => ?_, fun hp => absurd hp this⟩
            exfalso
            split at hp
            · simp at hp
            · cases hr : readSeq c n b (4 + n) ((ofBe32 b).toNat - 1) with
              | panic => exact readSeq_total h (by omega) hr
              | err e => rw [hr] at hp; simp at hp
              | ok x => rw [hr] at hp; simp at hp
  · constructor
    · intro hp
      unfold vecDec vecHeader at hp
      split at hp
      · simp at hp
      · rw [if_pos (by omega)] at hp; simp at hp
    · exact fun h => absurd h.2.1 hlen

/-- What it means that a vector is accepted.  The target plays no role, except that a zero count is only accepted without
overflow checks. -/
theorem vecDec_ok_iff (h : c.Fixed n) {b : Bytes} (hne : b ≠ []) (hB : b.length + n < t.modulus) {l : List α} :
    vecDec t c b = .ok l ↔ 4 < b.length ∧ (ofBe32 b).toNat ≠ 2 ^ 32 - 1 ∧ ∃ x, c.dec (b.drop 4) = .ok x ∧
      ((ofBe32 b ≠ 0 ∧ ∃ rest, readSeq c n b (4 + n) ((ofBe32 b).toNat - 1) = .ok rest ∧ l = x :: rest) ∨
       (ofBe32 b = 0 ∧ t.checked = false ∧ n ≤ 4 ∧ 4 - n < b.length ∧ l = [x])) := by
  by_cases hlen : 4 < b.length
  · by_cases hz : ofBe32 b = 0
    · have hzc : ZeroCount b := ⟨hlen, hz⟩
      rcases vecDec_zero h hzc hB with ⟨e, hd, he⟩ | ⟨x, hd, he⟩
      · rw [he, hd]; simp
      · rw [he, hd]
        cases hc : t.checked with
        | true => simp [hz]
        | false =>
          simp only [Bool.false_eq_true, if_false, hlen, hz, Res.ok.injEq, true_and, exists_eq_left', ne_eq, not_true_eq_false,
            false_and, false_or]
          have : (0 : UInt32).toNat ≠ 2 ^ 32 - 1 := by decide
          split
          · rename_i hs
            simp only [Res.ok.injEq]
            exact ⟨fun hl => ⟨this, hs.1, hs.2, hl.symm⟩, fun hl => hl.2.2.2.symm⟩
          · rename_i hs
            simp only [reduceCtorEq, false_iff]
            exact fun hl => hs ⟨hl.2.1, hl.2.2.1⟩
    · rw [vecDec_any h hlen hz (by omega)]
      have hpos : 1 ≤ (ofBe32 b).toNat := by
        rw [Nat.one_le_iff_ne_zero]; intro h0; exact hz (UInt32.toNat_inj.1 h0)
      simp only [hlen, hz, ne_eq, not_false_eq_true, true_and, false_and, or_false]
      generalize hN : (ofBe32 b).toNat = N at *
      split
      · rename_i hm; simp [hm]
      · rename_i hm
        simp only [hm, not_false_eq_true, true_and]
        cases hd : c.dec (b.drop 4) with
        | panic => exact absurd hd (h.total _)
        | err e => simp
        | ok x =>
          have hx := dec_long h (by omega) hd
          simp only [Res.ok_bind, Res.ok.injEq, exists_eq_left']
          cases hr : readSeq c n b (4 + n) (N - 1) with
          | panic => exact absurd hr (readSeq_total h hx)
          | err e =>
            simp only [Res.err_bind, reduceCtorEq, false_and, exists_false, iff_false]
            intro hl; split at hl
            · simp at hl
            · split at hl <;> simp at hl
          | ok rest =>
            have hall := (readSeq_inv h hx hr).2.1
            have hp := h.pos
            rw [if_neg (by omega), Nat.mod_eq_of_lt (by omega), if_neg (by omega)]
            simp only [Res.ok_bind, Res.ok.injEq, exists_eq_left']
            exact eq_comm
  · unfold vecDec vecHeader
    rw [if_neg (by simpa using hne), if_pos (by omega)]
    simp [hlen]

/-- Every vector accepted with a non-zero count, or with elements longer than four bytes, starts with its own encoding. -/
theorem vecDec_canon (h : c.Fixed n) {b : Bytes} (hne : b ≠ []) (hB : b.length + n < t.modulus) (hz : ofBe32 b ≠ 0 ∨ 4 < n)
    {l : List α} (hd : vecDec t c b = .ok l) :
    ofBe32 b ≠ 0 ∧ l.length = (ofBe32 b).toNat ∧ l.length < 2 ^ 32 - 1 ∧ vecLen c l ≤ b.length ∧
      vecEnc c l = .ok (b.take (vecLen c l)) := by
  obtain ⟨hlen, hm, x, hx, ⟨h0, rest, hr, rfl⟩ | ⟨h0, _, h4, _⟩⟩ := (vecDec_ok_iff h hne hB).1 hd
  swap
  · rcases hz with hz | hz
    · exact absurd h0 hz
    · omega
  have hpos : 1 ≤ (ofBe32 b).toNat := by
    rw [Nat.one_le_iff_ne_zero]; intro h1; exact h0 (UInt32.toNat_inj.1 h1)
  have hlt := (ofBe32 b).toNat_lt
  have hl := dec_long h (by omega) hx
  obtain ⟨g1, g2, bs, g3, g4⟩ := readSeq_inv h hl hr
  have hcnt : (x :: rest).length = (ofBe32 b).toNat := by simp [g1]; omega
  have hL : vecLen c (x :: rest) = 4 + n + ((ofBe32 b).toNat - 1) * n := by
    rw [vecLen_eq h (by simp), hcnt]
    conv_lhs => rw [show (ofBe32 b).toNat = (ofBe32 b).toNat - 1 + 1 by omega, Nat.add_mul]
    omega
  refine ⟨h0, hcnt, by omega, by omega, ?_⟩
  unfold vecEnc
  rw [if_neg (by simp), u32TryFrom_ok (by omega), Res.ok_bind]
  simp only [mapRes]
  rw [h.canon _ _ hx, g3]
  simp only [Res.ok_bind, Res.ok.injEq, List.flatten_cons]
  rw [hcnt, g4, hL]
  have : (ofBe32 b).toNat.toUInt32 = ofBe32 b := by
    apply UInt32.toNat_inj.1; rw [toNat_toUInt32 hlt]
  rw [this, be32_ofBe32 (by omega), List.take_add, List.take_add, List.append_assoc]

/-! ### Matrices -/

theorem readSeq_labels {b : Bytes} {o k : Nat} (h : o + k * 4 ≤ b.length) :
    readSeq u32Codec 4 b o k = .ok ((List.range k).map fun i => ofBe32 (b.drop (o + 4 * i))) := by
  induction k generalizing o with
  | zero => rfl
  | succ k ih =>
    rw [readSeq_succ, sliceFrom_ok (by omega), Res.ok_bind, ih (by omega), List.range_succ_eq_map, List.map_cons, List.map_map]
    have : u32Codec.dec (b.drop o) = .ok (ofBe32 (b.drop o)) := by
      simp only [u32Codec]
      rw [if_neg (by simp; omega), slice_zero (by simp; omega), Res.ok_bind, ofBe32_take (by simp; omega)]
    rw [this]
    simp only [Res.ok_bind, Nat.mul_zero, Nat.add_zero, Res.ok.injEq, List.cons.injEq, true_and]
    apply List.map_congr_left
    intro i _
    simp only [Function.comp]
    congr 2
    omega

/-- The loop over the labels when more labels are announced than there are bytes: it stops at the first repeated label, or
runs past the end. -/
theorem mspLabels_overrun {b : Bytes} {j k : Nat} (vec : List UInt32) (hv : vec.Nodup) (hB : b.length + 4 < t.modulus) (hjk : j < k)
    (hlen : 8 + (vec.length + j) * 4 ≤ b.length) (hend : b.length < 12 + (vec.length + j) * 4) {us : List UInt32}
    (hus : readSeq u32Codec 4 b (8 + vec.length * 4) j = .ok us) :
    mspLabels t b (List.range' vec.length k) vec vec.zipIdx.reverse =
      if (vec ++ us).Nodup then .panic else .err (.deserialization "error deserializing MSP, leaf already inserted") := by
  induction j generalizing vec us k with
  | zero =>
    simp only [readSeq, List.range_zero, mapRes, Res.ok.injEq] at hus
    subst hus
    obtain ⟨k, rfl⟩ : ∃ k', k = k' + 1 := ⟨k - 1, by omega⟩
    rw [List.range'_succ, mspLabels, umul_ok (by omega), Res.ok_bind, uadd_ok (by omega), Res.ok_bind, uadd_ok (by omega),
      Res.ok_bind]
    have : (slice b (8 + vec.length * 4) (12 + vec.length * 4) : Out Bytes) = .panic := by
      unfold slice; rw [if_neg (by omega)]
    rw [this, List.append_nil, if_pos hv]; rfl
  | succ j ih =>
    obtain ⟨k, rfl⟩ : ∃ k', k = k' + 1 := ⟨k - 1, by omega⟩
    rw [readSeq_succ, sliceFrom_ok (by omega), Res.ok_bind] at hus
    have hdec : u32Codec.dec (b.drop (8 + vec.length * 4)) = .ok (ofBe32 (b.drop (8 + vec.length * 4))) := by
      simp only [u32Codec]
      rw [if_neg (by simp; omega), slice_zero (by simp; omega), Res.ok_bind, ofBe32_take (by simp; omega)]
    rw [hdec, Res.ok_bind] at hus
    obtain ⟨us', e1, hus⟩ := Res.bind_eq_ok.1 hus
    simp only [Res.ok.injEq] at hus
    subst hus
    rw [List.range'_succ, mspLabels, umul_ok (by omega), Res.ok_bind, uadd_ok (by omega), Res.ok_bind, uadd_ok (by omega),
      Res.ok_bind, slice_ok (by omega), Res.ok_bind]
    have hs : ofBe32 ((b.take (12 + vec.length * 4)).drop (8 + vec.length * 4)) = ofBe32 (b.drop (8 + vec.length * 4)) := by
      rw [List.drop_take, show 12 + vec.length * 4 - (8 + vec.length * 4) = 4 by omega, ofBe32_take (by simp; omega)]
    rw [hs]
    set u := ofBe32 (b.drop (8 + vec.length * 4))
    dsimp only
    by_cases hu : u ∈ vec
    · have : ∃ j, hget vec.zipIdx.reverse u = some j := by
        rw [← Option.ne_none_iff_exists']
        intro h0; exact hget_labels.1 h0 hu
      obtain ⟨j, hj⟩ := this
      rw [hj, if_neg]
      intro hnd
      rw [List.nodup_append] at hnd
      exact hnd.2.2 u hu u (by simp) rfl
    · rw [hget_labels.2 hu]
      dsimp only
      rw [hinsert_labels hu]
      have hv' : (vec ++ [u]).Nodup := by
        rw [List.nodup_append]; exact ⟨hv, by simp, by rintro a ha b hb rfl; simp at hb; exact hu (hb ▸ ha)⟩
      have hlen' : (vec ++ [u]).length = vec.length + 1 := by simp
      have := ih (vec ++ [u]) hv' (k := k) (by omega) (by rw [hlen']; omega) (by rw [hlen']; omega) (us := us') (by
        rw [hlen', show 8 + (vec.length + 1) * 4 = 8 + vec.length * 4 + 4 by ring]; exact e1)
      rw [hlen'] at this
      rw [this, List.append_assoc]
      rfl

/-- The head of a matrix on every target. -/
theorem mspHeader_any {b : Bytes} (h8 : 8 ≤ b.length) (hB : b.length + 4 < t.modulus) :
    mspHeader t b =
      if t.checked = true ∧ t.modulus ≤ 8 + 4 * (ofBe32 b).toNat then .panic
      else if b.length < (8 + 4 * (ofBe32 b).toNat) % t.modulus then .err (.invalidSize "invalid MSP size read from bytes")
      else if 8 + 4 * (ofBe32 b).toNat ≤ b.length then
        if (labelsOf b (ofBe32 b).toNat).Nodup then
          .ok ((ofBe32 b).toNat, (ofBe32 (b.drop 4)).toNat, labelsOf b (ofBe32 b).toNat, (labelsOf b (ofBe32 b).toNat).zipIdx.reverse)
        else .err (.deserialization "error deserializing MSP, leaf already inserted")
      else if (labelsOf b ((b.length - 8) / 4)).Nodup then .panic else .err (.deserialization "error deserializing MSP, leaf already inserted") := by
  by_cases hR : 8 + 4 * (ofBe32 b).toNat ≤ b.length
  · rw [if_neg (by omega), Nat.mod_eq_of_lt (by omega), if_neg (by omega), if_pos hR]
    exact mspHeader_spec h8 (by omega) (by omega) (readSeq_labels (by omega))
  · rw [if_neg hR]
    unfold mspHeader
    rw [if_neg (by omega), slice_zero (by omega), Res.ok_bind, slice_ok (by omega), Res.ok_bind, ofBe32_take (by omega)]
    dsimp only
    rw [uaddmul _ _ _ _ (by omega)]
    split
    · rfl
    · split
      · rfl
      · have := mspLabels_overrun (t := t) (b := b) (j := (b.length - 8) / 4) (k := (ofBe32 b).toNat) [] (by simp) hB (by omega)
          (by simp; omega) (by simp; omega) (readSeq_labels (by simp; omega))
        simp only [List.length_nil, List.zipIdx_nil, List.reverse_nil, List.nil_append, Nat.zero_mul, Nat.add_zero] at this
        rw [List.range_eq_range', this]
        have e : (List.range ((b.length - 8) / 4)).map (fun i => ofBe32 (b.drop (8 + 4 * i))) = labelsOf b ((b.length - 8) / 4) := rfl
        rw [e]
        split <;> rfl

/-- The entries of a matrix, read in order. -/
def mspRead (c : Codec α) (n : Nat) (b : Bytes) (R C : Nat) : Out (List (List α)) := do
  let first ← c.dec (b.drop (8 + 4 * R))
  let rest ← readSeq c n b (8 + 4 * R + n) (C - 1)
  let rows ← readRows c n b (8 + 4 * R + C * n) C (R - 1)
  .ok ((first :: rest) :: rows)

theorem mspRead_total (h : c.Fixed n) {b : Bytes} {R C : Nat} (hR : 8 + 4 * R ≤ b.length) : mspRead c n b R C ≠ .panic := by
  unfold mspRead
  cases hd : c.dec (b.drop (8 + 4 * R)) with
  | panic => exact absurd hd (h.total _)
  | err e => simp
  | ok first =>
    have hx := dec_long h hR hd
    rw [Res.ok_bind]
    cases hr : readSeq c n b (8 + 4 * R + n) (C - 1) with
    | panic => exact absurd hr (readSeq_total h hx)
    | err e => simp
    | ok rest =>
      have hy := (readSeq_inv h hx hr).2.1
      have ho : 8 + 4 * R + C * n ≤ b.length := by
        rcases Nat.eq_zero_or_pos C with h0 | h0
        · subst h0; omega
        · have : C * n = n + (C - 1) * n := by
            conv_lhs => rw [show C = C - 1 + 1 by omega, Nat.add_mul]
            omega
          omega
      rw [Res.ok_bind]
      cases hs : readRows c n b (8 + 4 * R + C * n) C (R - 1) with
      | panic => exact absurd hs (readRows_total h ho)
      | err e => simp
      | ok rows => simp

/-- When all entries can be read, the announced dimensions fit in the input. -/
theorem mspRead_fits (h : c.Fixed n) {b : Bytes} {R C : Nat} (hR : 8 + 4 * R ≤ b.length) {rows : List (List α)}
    (hd : mspRead c n b R C = .ok rows) : 8 + 4 * R + R * C * n ≤ b.length ∧ 8 + 4 * R + C * n ≤ b.length := by
  unfold mspRead at hd
  obtain ⟨first, h1, hd⟩ := Res.bind_eq_ok.1 hd
  obtain ⟨rest, h2, hd⟩ := Res.bind_eq_ok.1 hd
  obtain ⟨rows', h3, hd⟩ := Res.bind_eq_ok.1 hd
  have hx := dec_long h hR h1
  have hy := (readSeq_inv h hx h2).2.1
  have ho : 8 + 4 * R + C * n ≤ b.length := by
    rcases Nat.eq_zero_or_pos C with h0 | h0
    · subst h0; omega
    · have : C * n = n + (C - 1) * n := by
        conv_lhs => rw [show C = C - 1 + 1 by omega, Nat.add_mul]
        omega
      omega
  refine ⟨?_, ho⟩
  have hz := (readRows_inv h ho h3).2.2.1
  rcases Nat.eq_zero_or_pos R with h0 | h0
  · subst h0; omega
  · have : R * C * n = C * n + (R - 1) * (C * n) := by
      conv_lhs => rw [show R = R - 1 + 1 by omega]
      ring
    omega

/-- `mspDec` after the head, on every target. -/
theorem mspDec_any (h : c.Fixed n) {b : Bytes} {R C : Nat} (hR : 8 + 4 * R ≤ b.length) (hB : b.length < t.modulus)
    {us : List UInt32} {map : List (UInt32 × Nat)} (hh : mspHeader t b = .ok (R, C, us, map)) :
    mspDec t c b = (do
      let _ ← c.dec (b.drop (8 + 4 * R))
      if t.checked = true ∧ t.modulus ≤ 8 + 4 * R + R * C * n then .panic
      else if b.length < (8 + 4 * R + R * C * n) % t.modulus then .err (.invalidSize "invalid matrix size read from bytes")
      else (do
        let matrix ← mspRead c n b R C
        .ok { nbRow := R, nbCol := C, matrix := matrix, attrToRow := map, rowToAttr := us })) := by
  have hbase : mspBase t R = .ok (8 + 4 * R) := by
    unfold mspBase
    rw [umul_ok (by omega), Res.ok_bind, uadd_ok (by omega)]
  unfold mspDec
  rw [hh, Res.ok_bind]
  dsimp only
  rw [hbase, Res.ok_bind, sliceFrom_ok (by omega), Res.ok_bind]
  cases hd : c.dec (b.drop (8 + 4 * R)) with
  | panic => exact absurd hd (h.total _)
  | err e => rfl
  | ok first =>
    have hx := dec_long h hR hd
    simp only [Res.ok_bind, h.len]
    rw [uaddmul3 _ _ _ _ _ (by omega) h.pos]
    split
    · rfl
    · split
      · rfl
      · have hpos := h.pos
        have hle : ∀ k, k ≤ k * n := fun k => Nat.le_mul_of_pos_right _ hpos
        have e1 : mapRes (mspEntry t c b R n) (List.range' 1 (C - 1)) = readSeq c n b (8 + 4 * R + n) (C - 1) := by
          rw [List.range'_eq_map_range, mapRes_map]
          apply mapRes_readSeq h hx
          intro i hi
          have e : (1 + i) * n = n + i * n := by ring
          unfold mspEntry
          rw [hbase, Res.ok_bind, umul_ok (by omega), Res.ok_bind, uadd_ok (by omega), Res.ok_bind, e, ← Nat.add_assoc, sliceFrom_ok hi,
            Res.ok_bind]
        unfold mspRead
        rw [e1, hd, Res.ok_bind]
        cases hr : readSeq c n b (8 + 4 * R + n) (C - 1) with
        | panic => rfl
        | err e => rfl
        | ok rest =>
          have hy := (readSeq_inv h hx hr).2.1
          have ho : 8 + 4 * R + C * n ≤ b.length := by
            rcases Nat.eq_zero_or_pos C with h0 | h0
            · subst h0; omega
            · have : C * n = n + (C - 1) * n := by
                conv_lhs => rw [show C = C - 1 + 1 by omega, Nat.add_mul]
                omega
              omega
          have e2 : mapRes (fun r => mapRes (fun col => do
              let rn ← t.umul r C
              let k ← t.uadd rn col
              mspEntry t c b R n k) (List.range C)) (List.range' 1 (R - 1)) =
              readRows c n b (8 + 4 * R + C * n) C (R - 1) := by
            rw [List.range'_eq_map_range, mapRes_map]
            apply mapRes_readRows h ho
            intro r hr'
            apply mapRes_readSeq h hr'
            intro i hi
            have e3 : ((1 + r) * C + i) * n = C * n + r * (C * n) + i * n := by ring
            have e4 : 8 + 4 * R + ((1 + r) * C + i) * n = 8 + 4 * R + C * n + r * (C * n) + i * n := by rw [e3]; ring
            have h5 := hle ((1 + r) * C + i)
            unfold mspEntry
            rw [umul_ok (by omega), Res.ok_bind, uadd_ok (by omega), Res.ok_bind, hbase, Res.ok_bind, umul_ok (by omega), Res.ok_bind,
              uadd_ok (by omega), Res.ok_bind, e4, sliceFrom_ok hi, Res.ok_bind]
          simp only [Res.ok_bind]
          rw [e2]
          cases readRows c n b (8 + 4 * R + C * n) C (R - 1) <;> rfl

theorem mspDec_panic_iff (h : c.Fixed n) {b : Bytes} (hB : b.length + 4 < t.modulus) :
    mspDec t c b = .panic ↔ MspPanics t c n b := by
  unfold MspPanics
  by_cases h8 : 8 ≤ b.length
  swap
  · have : mspHeader t b = .err (.invalidSize "minimum len of 8 bytes is required for MSP") := by unfold mspHeader; rw [if_pos (by omega)]
    unfold mspDec
    rw [this]
    simp [h8]
  have hh := mspHeader_any (t := t) h8 hB
  simp only [h8, true_and]
  generalize hR : (ofBe32 b).toNat = R at *
  generalize hC : (ofBe32 (b.drop 4)).toNat = C at *
  by_cases hov : t.modulus ≤ 8 + 4 * R
  · have hne : ¬ 8 + 4 * R ≤ b.length := by omega
    simp only [hov, true_and, hne, false_and, or_false]
    have hcong : ∀ {x : Out (Nat × Nat × List UInt32 × List (UInt32 × Nat))}, mspHeader t b = x → (∀ y, x ≠ .ok y) →
        (mspDec t c b = .panic ↔ x = .panic) := by
      intro x hx hok
      unfold mspDec
      rw [hx]
      cases x with
      | ok y => exact absurd rfl (hok y)
      | err e => simp
      | panic => simp
    by_cases hc : t.checked = true
    · rw [if_pos ⟨hc, hov⟩] at hh
      rw [hcong hh (by simp)]
      simp [hc]
    · rw [if_neg (by tauto)] at hh
      simp only [hc, Bool.false_eq_true, false_or]
      by_cases hw : b.length < (8 + 4 * R) % t.modulus
      · rw [if_pos hw] at hh
        rw [hcong hh (by simp)]
        simp only [reduceCtorEq, false_iff]
        omega
      · rw [if_neg hw, if_neg hne] at hh
        have hw' : (8 + 4 * R) % t.modulus ≤ b.length := by omega
        simp only [hw', true_and]
        by_cases hnd : (labelsOf b ((b.length - 8) / 4)).Nodup
        · rw [if_pos hnd] at hh
          rw [hcong hh (by simp)]
          simp [hnd]
        · rw [if_neg hnd] at hh
          rw [hcong hh (by simp)]
          simp [hnd]
  · simp only [hov, false_and, false_or]
    rw [if_neg (by tauto), Nat.mod_eq_of_lt (by omega)] at hh
    by_cases hle : 8 + 4 * R ≤ b.length
    · rw [if_neg (by omega), if_pos hle] at hh
      simp only [hle, true_and]
      by_cases hnd : (labelsOf b R).Nodup
      · rw [if_pos hnd] at hh
        simp only [hnd, true_and]
        rw [mspDec_any h hle (by omega) hh]
        cases hd : c.dec (b.drop (8 + 4 * R)) with
        | panic => exact absurd hd (h.total _)
        | err e => simp
        | ok x =>
          rw [Res.ok_bind]
          by_cases hp : t.checked = true ∧ t.modulus ≤ 8 + 4 * R + R * C * n
          · rw [if_pos hp]
            simp [hp.1, hp.2]
          · rw [if_neg hp]
            have hnot : ¬ ((∃ y, Res.ok (ε := FormatErr) x = .ok y) ∧ t.checked = true ∧ t.modulus ≤ 8 + 4 * R + R * C * n) :=
              fun h => hp h.2
            refine ⟨fun hq => ?_, fun hq => absurd hq hnot⟩
            exfalso
            split at hq
            · simp at hq
            · cases hr : mspRead c n b R C with
              | panic => exact mspRead_total h hle hr
              | err e => rw [hr] at hq; simp at hq
              | ok rows => rw [hr] at hq; simp at hq
      · rw [if_neg hnd] at hh
        unfold mspDec
        rw [hh]
        simp [hnd]
    · rw [if_pos (by omega)] at hh
      unfold mspDec
      rw [hh]
      simp [hle]

/-- What it means that a matrix is accepted, on every target: the target plays no role. -/
theorem mspDec_ok_iff (h : c.Fixed n) {b : Bytes} (hB : b.length + 4 < t.modulus) {m : Msp α} :
    mspDec t c b = .ok m ↔ 8 ≤ b.length ∧ 8 + 4 * (ofBe32 b).toNat ≤ b.length ∧ (labelsOf b (ofBe32 b).toNat).Nodup ∧
      ∃ rows, mspRead c n b (ofBe32 b).toNat (ofBe32 (b.drop 4)).toNat = .ok rows ∧
        m = { nbRow := (ofBe32 b).toNat, nbCol := (ofBe32 (b.drop 4)).toNat, matrix := rows,
              attrToRow := (labelsOf b (ofBe32 b).toNat).zipIdx.reverse, rowToAttr := labelsOf b (ofBe32 b).toNat } := by
  by_cases h8 : 8 ≤ b.length
  swap
  · have : mspHeader t b = .err (.invalidSize "minimum len of 8 bytes is required for MSP") := by unfold mspHeader; rw [if_pos (by omega)]
    unfold mspDec
    rw [this]
    simp [h8]
  have hh := mspHeader_any (t := t) h8 hB
  simp only [h8, true_and]
  generalize hR : (ofBe32 b).toNat = R at *
  generalize hC : (ofBe32 (b.drop 4)).toNat = C at *
  by_cases hle : 8 + 4 * R ≤ b.length
  · rw [if_neg (by omega), Nat.mod_eq_of_lt (by omega), if_neg (by omega), if_pos hle] at hh
    simp only [hle, true_and]
    by_cases hnd : (labelsOf b R).Nodup
    · rw [if_pos hnd] at hh
      simp only [hnd, true_and]
      rw [mspDec_any h hle (by omega) hh]
      cases hr : mspRead c n b R C with
      | panic => exact absurd hr (mspRead_total h hle)
      | err e =>
        simp only [reduceCtorEq, false_and, exists_false, iff_false]
        intro hd
        obtain ⟨x, _, hd⟩ := Res.bind_eq_ok.1 hd
        split at hd
        · simp at hd
        · split at hd <;> simp at hd
      | ok rows =>
        obtain ⟨hf, _⟩ := mspRead_fits h hle hr
        have hd : ∃ x, c.dec (b.drop (8 + 4 * R)) = .ok x := by
          unfold mspRead at hr
          obtain ⟨x, hx, _⟩ := Res.bind_eq_ok.1 hr
          exact ⟨x, hx⟩
        obtain ⟨x, hx⟩ := hd
        rw [hx, Res.ok_bind, if_neg (by omega), Nat.mod_eq_of_lt (by omega), if_neg (by omega), Res.ok_bind]
        simp only [Res.ok.injEq, exists_eq_left']
        exact eq_comm
    · rw [if_neg hnd] at hh
      unfold mspDec
      rw [hh]
      simp [hnd]
  · simp only [hle, false_and, iff_false]
    intro hd
    unfold mspDec at hd
    obtain ⟨y, hy, _⟩ := Res.bind_eq_ok.1 hd
    rw [hh, if_neg hle] at hy
    split at hy
    · simp at hy
    · split at hy
      · simp at hy
      · split at hy <;> simp at hy

/-- Every matrix accepted with non-zero dimensions is regular, and the bytes start with its encoding. -/
theorem mspDec_canon (h : c.Fixed n) {b : Bytes} (hB : b.length + 4 < t.modulus) {m : Msp α} (hd : mspDec t c b = .ok m) :
    m.nbRow = (ofBe32 b).toNat ∧ m.nbCol = (ofBe32 (b.drop 4)).toNat ∧
      (0 < m.nbRow → 0 < m.nbCol → m.Regular ∧ mspLen c m ≤ b.length ∧ mspEnc c m = .ok (b.take (mspLen c m))) := by
  have hw : ∃ t' : Target, b.length + 4 < t'.modulus ∧ ¬ DimOverflow t' n b := by
    refine ⟨⟨b.length + 4 + (8 + (ofBe32 b).toNat * 4 + (ofBe32 b).toNat * (ofBe32 (b.drop 4)).toNat * n +
      (ofBe32 (b.drop 4)).toNat * n), false⟩, ?_, ?_⟩
    · refine lt_of_le_of_lt ?_ Nat.lt_two_pow_self
      dsimp only
      omega
    · unfold DimOverflow Target.modulus
      have := Nat.lt_two_pow_self (n := b.length + 4 + (8 + (ofBe32 b).toNat * 4 + (ofBe32 b).toNat * (ofBe32 (b.drop 4)).toNat * n +
        (ofBe32 (b.drop 4)).toNat * n))
      dsimp only
      omega
  obtain ⟨t', hB', hov⟩ := hw
  have hd' : mspDec t' c b = .ok m := (mspDec_ok_iff h hB').2 ((mspDec_ok_iff h hB).1 hd)
  rcases mspDec_cases h hov with ⟨e, he⟩ | ⟨m', g1, g2, g3, g4⟩
  · rw [he] at hd'; simp at hd'
  · rw [g1] at hd'
    simp only [Res.ok.injEq] at hd'
    subst hd'
    exact ⟨g2, g3, g4⟩

end Abe

import Verif.Spec.Codec
import Verif.Proofs.Basic
import Mathlib.Tactic.Ring
import Mathlib.Tactic.Linarith
import Mathlib.Tactic.IntervalCases

/-!
# Lemmas on the byte encodings
-/

namespace Abe

set_option linter.unusedSectionVars false

variable {α β : Type}

/-! ### Numbers -/

theorem ofBe32_be32 (n : UInt32) (r : Bytes) : ofBe32 (be32 n ++ r) = n := by
  have h := n.toNat_lt
  apply UInt32.toNat_inj.1
  simp only [be32, List.cons_append, ofBe32, List.nil_append, Nat.toUInt8, UInt8.toNat_ofNat', Nat.toUInt32, UInt32.toNat_ofNat']
  omega

theorem be32_length (n : UInt32) : (be32 n).length = 4 := rfl

theorem be32_ofBe32 {b : Bytes} (h : 4 ≤ b.length) : be32 (ofBe32 b) = b.take 4 := by
  match b, h with
  | b0 :: b1 :: b2 :: b3 :: _, _ =>
    have h0 := b0.toNat_lt
    have h1 := b1.toNat_lt
    have h2 := b2.toNat_lt
    have h3 := b3.toNat_lt
    simp only [ofBe32, be32, Nat.toUInt32, UInt32.toNat_ofNat', List.take_succ_cons, List.take_zero, Nat.toUInt8]
    congr 1
    · apply UInt8.toNat_inj.1; rw [UInt8.toNat_ofNat']; omega
    · congr 1
      · apply UInt8.toNat_inj.1; rw [UInt8.toNat_ofNat']; omega
      · congr 1
        · apply UInt8.toNat_inj.1; rw [UInt8.toNat_ofNat']; omega
        · congr 1
          apply UInt8.toNat_inj.1; rw [UInt8.toNat_ofNat']; omega

theorem ofBe32_take {b : Bytes} (h : 4 ≤ b.length) : ofBe32 (b.take 4) = ofBe32 b := by
  match b, h with
  | b0 :: b1 :: b2 :: b3 :: _, _ => rfl

theorem slice_ok {b : Bytes} {i j : Nat} (h : i ≤ j ∧ j ≤ b.length) : (slice b i j : Out Bytes) = .ok ((b.take j).drop i) := by
  unfold slice; rw [if_pos h]

theorem slice_zero {b : Bytes} {j : Nat} (h : j ≤ b.length) : (slice b 0 j : Out Bytes) = .ok (b.take j) := by
  rw [slice_ok ⟨by omega, h⟩]; rfl

theorem sliceFrom_ok {b : Bytes} {i : Nat} (h : i ≤ b.length) : (sliceFrom b i : Out Bytes) = .ok (b.drop i) := by
  unfold sliceFrom; rw [if_pos h]

theorem u32TryFrom_ok {n : Nat} (h : n < 2 ^ 32) : u32TryFrom n = .ok n.toUInt32 := by
  unfold u32TryFrom; rw [if_pos h]

theorem toNat_toUInt32 {n : Nat} (h : n < 2 ^ 32) : n.toUInt32.toNat = n := by
  simp only [Nat.toUInt32, UInt32.toNat_ofNat']; omega

theorem u32Codec_fixed : u32Codec.Fixed 4 where
  pos := by decide
  len _ := rfl
  enc x := ⟨_, rfl, rfl⟩
  round x b r h := by
    simp only [u32Codec, Res.ok.injEq] at h
    subst h
    simp only [u32Codec]
    rw [if_neg (by simp [be32_length]), slice_zero (by simp [be32_length]), Res.ok_bind, ofBe32_take (by simp [be32_length]),
      ofBe32_be32]
  short b h := ⟨_, by simp only [u32Codec]; rw [if_pos h]⟩
  canon b x h := by
    simp only [u32Codec] at h
    split at h
    · simp at h
    · rw [slice_zero (by omega), Res.ok_bind] at h
      simp only [Res.ok.injEq] at h
      simp only [u32Codec, Res.ok.injEq]
      rw [← h, ofBe32_take (by omega), be32_ofBe32 (by omega)]
  total b := by
    simp only [u32Codec]
    split
    · simp
    · rw [slice_zero (by omega)]; simp

theorem leBytes_length (k n : Nat) : (leBytes k n).length = k := by
  induction k generalizing n with
  | zero => rfl
  | succ k ih => simp [leBytes, ih]

theorem ofLe_leBytes {k n : Nat} (h : n < 256 ^ k) : ofLe (leBytes k n) = n := by
  induction k generalizing n with
  | zero => simp at h; simp [leBytes, ofLe, h]
  | succ k ih =>
    have : n / 256 < 256 ^ k := by
      rw [Nat.div_lt_iff_lt_mul (by decide)]; rw [pow_succ] at h; exact h
    simp only [leBytes, ofLe, ih this, Nat.toUInt8, UInt8.toNat_ofNat']
    omega

theorem leBytes_ofLe (b : Bytes) : leBytes b.length (ofLe b) = b := by
  induction b with
  | nil => rfl
  | cons x b ih =>
    have hx := x.toNat_lt
    simp only [List.length_cons, leBytes, ofLe]
    congr 1
    · apply UInt8.toNat_inj.1
      simp only [Nat.toUInt8, UInt8.toNat_ofNat']; omega
    · rw [show (x.toNat + 256 * ofLe b) / 256 = ofLe b by omega, ih]

theorem ofLe_lt (b : Bytes) : ofLe b < 256 ^ b.length := by
  induction b with
  | nil => simp [ofLe]
  | cons x b ih =>
    have hx := x.toNat_lt
    simp only [ofLe, List.length_cons, pow_succ]
    omega

theorem scalarCodec_fixed (q : Nat) [NeZero q] (hq : q ≤ 256 ^ 32) : (scalarCodec q).Fixed 32 where
  pos := by decide
  len _ := rfl
  enc x := ⟨_, rfl, leBytes_length _ _⟩
  round x b r h := by
    simp only [scalarCodec, Res.ok.injEq] at h
    subst h
    have hl := leBytes_length 32 x.val
    have hx : x.val < 256 ^ 32 := lt_of_lt_of_le x.val_lt hq
    simp only [scalarCodec]
    rw [if_neg (by simp [hl]), slice_zero (by simp [hl]), Res.ok_bind, List.take_left' hl]
    unfold scalarFromBytes
    rw [ofLe_leBytes hx, if_pos x.val_lt]
    simp
  short b h := ⟨_, by simp only [scalarCodec]; rw [if_pos h]⟩
  canon b x h := by
    simp only [scalarCodec] at h
    split at h
    · simp at h
    · rw [slice_zero (by omega), Res.ok_bind] at h
      unfold scalarFromBytes at h
      split at h
      · rename_i y hy
        split at hy
        · rename_i hlt
          simp only [Option.some.injEq] at hy
          simp only [Res.ok.injEq] at h
          simp only [scalarCodec, Res.ok.injEq]
          rw [← h, ← hy, ZMod.val_cast_of_lt hlt]
          have h32 : (b.take 32).length = 32 := by simp; omega
          have := leBytes_ofLe (b.take 32)
          rwa [h32] at this
        · simp at hy
      · simp at h
  total b := by
    simp only [scalarCodec]
    split
    · simp
    · rw [slice_zero (by omega), Res.ok_bind]
      split <;> simp

/-- A compressed point encoding is lawful when the external functions are inverse of each other. -/
theorem pointCodec_fixed {name name' : String} {n : Nat} (hn : 0 < n) {toC : α → Bytes} {ofC : Bytes → Option α} (hl : ∀ x, (toC x).length = n)
    (h : ∀ b x, b.length = n → (ofC b = some x ↔ toC x = b)) : (pointCodec name name' n toC ofC).Fixed n where
  pos := hn
  len _ := rfl
  enc x := ⟨_, rfl, hl x⟩
  round x b r hb := by
    simp only [pointCodec, Res.ok.injEq] at hb
    subst hb
    simp only [pointCodec]
    rw [if_neg (by simp [hl]), slice_zero (by simp [hl]), Res.ok_bind, List.take_left' (hl x), (h _ x (hl x)).2 rfl]
  short b hb := ⟨_, by simp only [pointCodec]; rw [if_pos hb]⟩
  canon b x hb := by
    simp only [pointCodec] at hb
    split at hb
    · simp at hb
    · rw [slice_zero (by omega), Res.ok_bind] at hb
      split at hb
      · rename_i y hy
        simp only [Res.ok.injEq] at hb
        subst hb
        simp only [pointCodec, Res.ok.injEq]
        exact (h _ _ (by simp; omega)).1 hy
      · simp at hb
  total b := by
    simp only [pointCodec]
    split
    · simp
    · rw [slice_zero (by omega), Res.ok_bind]
      split <;> simp

/-! ### Reading consecutive elements -/

theorem Codec.Fixed.encMap {c : Codec α} {n : Nat} (h : c.Fixed n) (l : List α) :
    ∃ bs, mapRes c.enc l = .ok bs ∧ bs.flatten.length = l.length * n := by
  induction l with
  | nil => exact ⟨[], rfl, by simp⟩
  | cons x l ih =>
    obtain ⟨bs, h1, h2⟩ := ih
    obtain ⟨b, h3, h4⟩ := h.enc x
    exact ⟨b :: bs, by simp [mapRes, h1, h3], by simp [h2, h4]; ring⟩

/-- Reading `k` elements from the offsets `o, o + n, o + 2n, …`. -/
def readSeq (c : Codec α) (n : Nat) (bytes : Bytes) (o k : Nat) : Out (List α) :=
  mapRes (fun i => do let s ← sliceFrom bytes (o + i * n); c.dec s) (List.range k)

theorem mapRes_map {γ : Type} {ε : Type} (f : β → Res ε γ) (g : α → β) (l : List α) :
    mapRes f (l.map g) = mapRes (fun a => f (g a)) l := by
  induction l with
  | nil => rfl
  | cons a l ih => simp [mapRes, ih]

theorem mapRes_congr {ε : Type} {f g : α → Res ε β} {l : List α} (h : ∀ a ∈ l, f a = g a) : mapRes f l = mapRes g l := by
  induction l with
  | nil => rfl
  | cons a l ih => simp only [mapRes]; rw [h a (by simp), ih fun b hb => h b (by simp [hb])]

theorem readSeq_succ (c : Codec α) (n : Nat) (bytes : Bytes) (o k : Nat) :
    readSeq c n bytes o (k + 1) = (do
      let s ← sliceFrom bytes o
      let x ← c.dec s
      let xs ← readSeq c n bytes (o + n) k
      .ok (x :: xs)) := by
  unfold readSeq
  rw [List.range_succ_eq_map]
  simp only [mapRes, mapRes_map, Nat.zero_mul, Nat.add_zero]
  have : ∀ i, o + (i + 1) * n = o + n + i * n := fun i => by ring
  simp only [Nat.succ_eq_add_one, this]
  cases (sliceFrom bytes o : Out Bytes) <;> rfl

theorem readSeq_ok {c : Codec α} {n : Nat} (h : c.Fixed n) {bytes r : Bytes} {o : Nat} {xs : List α} {bs : List Bytes}
    (ho : o ≤ bytes.length) (he : mapRes c.enc xs = .ok bs) (hb : bytes.drop o = bs.flatten ++ r) :
    readSeq c n bytes o xs.length = .ok xs := by
  induction xs generalizing o bs with
  | nil => rfl
  | cons x xs ih =>
    rw [List.length_cons, readSeq_succ]
    simp only [mapRes] at he
    obtain ⟨b, e1, he⟩ := Res.bind_eq_ok.1 he
    obtain ⟨bs', e2, he⟩ := Res.bind_eq_ok.1 he
    simp only [Res.ok.injEq] at he
    subst he
    obtain ⟨b', e3, e4⟩ := h.enc x
    rw [e1] at e3
    simp only [Res.ok.injEq] at e3
    subst e3
    rw [sliceFrom_ok ho, Res.ok_bind, hb]
    rw [List.flatten_cons, List.append_assoc, h.round x b _ e1, Res.ok_bind]
    have hd : bytes.drop (o + n) = bs'.flatten ++ r := by
      rw [← List.drop_drop, hb, List.flatten_cons, List.append_assoc, ← e4, List.drop_left]
    have hle : o + n ≤ bytes.length := by
      have := congrArg List.length hb
      simp only [List.length_drop, List.length_append, List.flatten_cons] at this
      omega
    rw [ih hle e2 hd]; rfl

theorem readSeq_inv {c : Codec α} {n : Nat} (h : c.Fixed n) {bytes : Bytes} {o k : Nat} {xs : List α}
    (ho : o ≤ bytes.length) (hr : readSeq c n bytes o k = .ok xs) :
    xs.length = k ∧ o + k * n ≤ bytes.length ∧ ∃ bs, mapRes c.enc xs = .ok bs ∧ bs.flatten = (bytes.drop o).take (k * n) := by
  induction k generalizing o xs with
  | zero =>
    simp only [readSeq, List.range_zero, mapRes, Res.ok.injEq] at hr
    subst hr
    exact ⟨rfl, by omega, [], rfl, by simp⟩
  | succ k ih =>
    rw [readSeq_succ, sliceFrom_ok ho, Res.ok_bind] at hr
    obtain ⟨x, e1, hr⟩ := Res.bind_eq_ok.1 hr
    obtain ⟨xs', e2, hr⟩ := Res.bind_eq_ok.1 hr
    simp only [Res.ok.injEq] at hr
    subst hr
    have hlen : n ≤ (bytes.drop o).length := by
      by_contra hlt
      obtain ⟨e, he⟩ := h.short _ (not_le.1 hlt)
      rw [he] at e1; simp at e1
    rw [List.length_drop] at hlen
    obtain ⟨g1, g2, bs, g3, g4⟩ := ih (o := o + n) (by omega) e2
    refine ⟨by simp [g1], by rw [Nat.add_mul]; omega, (bytes.drop o).take n :: bs, ?_, ?_⟩
    · simp only [mapRes]; rw [h.canon _ _ e1, g3]; rfl
    · rw [List.flatten_cons, g4, Nat.add_mul, Nat.one_mul, Nat.add_comm (k * n) n, List.take_add, List.drop_drop]

theorem readSeq_total {c : Codec α} {n : Nat} (h : c.Fixed n) {bytes : Bytes} {o k : Nat} (ho : o ≤ bytes.length) :
    readSeq c n bytes o k ≠ .panic := by
  induction k generalizing o with
  | zero => simp [readSeq]
  | succ k ih =>
    rw [readSeq_succ, sliceFrom_ok ho, Res.ok_bind]
    cases hd : c.dec (bytes.drop o) with
    | panic => exact absurd hd (h.total _)
    | err e => simp
    | ok x =>
      have hlen : n ≤ (bytes.drop o).length := by
        by_contra hlt
        obtain ⟨e, he⟩ := h.short _ (not_le.1 hlt)
        rw [he] at hd; simp at hd
      rw [List.length_drop] at hlen
      rw [Res.ok_bind]
      have := ih (o := o + n) (by omega)
      cases hr : readSeq c n bytes (o + n) k with
      | panic => exact absurd hr this
      | err e => simp
      | ok x => simp

/-! ### Vectors -/

section
variable {t : Target} {c : Codec α} {n : Nat}

theorem two64_le {t : Target} (ht : 64 ≤ t.bits) : 2 ^ 64 ≤ t.modulus := Nat.pow_le_pow_right (by decide) ht

theorem umul_ok {ε : Type} {t : Target} {a b : Nat} (h : a * b < t.modulus) : (t.umul a b : Res ε Nat) = .ok (a * b) := by
  unfold Target.umul; rw [if_pos h]

theorem uadd_ok {ε : Type} {t : Target} {a b : Nat} (h : a + b < t.modulus) : (t.uadd a b : Res ε Nat) = .ok (a + b) := by
  unfold Target.uadd; rw [if_pos h]

theorem usub_ok {ε : Type} {t : Target} {a b : Nat} (h : b ≤ a) : (t.usub a b : Res ε Nat) = .ok (a - b) := by
  unfold Target.usub; rw [if_pos h]

/-- The announced count is zero. -/
def ZeroCount (b : Bytes) : Prop := 4 < b.length ∧ ofBe32 b = 0

/-- The announced count of elements of `n` bytes does not fit in the address space. -/
def CountOverflow (t : Target) (n : Nat) (b : Bytes) : Prop := 4 < b.length ∧ t.modulus ≤ 4 + (ofBe32 b).toNat * n

theorem not_countOverflow (ht : 64 ≤ t.bits) (hn : n ≤ 2 ^ 30) (b : Bytes) : ¬ CountOverflow t n b := by
  rintro ⟨_, h⟩
  have h64 := two64_le ht
  have hlt := (ofBe32 b).toNat_lt
  have : (ofBe32 b).toNat * n ≤ 2 ^ 32 * 2 ^ 30 := Nat.mul_le_mul (by omega) hn
  omega

/-- `vecDec` on a long enough input with a non-zero count. -/
theorem vecDec_red (h : c.Fixed n) {bytes : Bytes} (hlen : 4 < bytes.length) (hz : ofBe32 bytes ≠ 0)
    (hov : 4 + (ofBe32 bytes).toNat * n < t.modulus) :
    vecDec t c bytes =
      if (ofBe32 bytes).toNat = 2 ^ 32 - 1 then .err (.deserialization "deserializing element failed. Data altered?")
      else (do
        let x ← c.dec (bytes.drop 4)
        if bytes.length ≤ 4 + ((ofBe32 bytes).toNat - 1) * n then .err (.deserialization "deserializing element failed. Data altered?")
        else (do
          let rest ← readSeq c n bytes (4 + n) ((ofBe32 bytes).toNat - 1)
          .ok (x :: rest))) := by
  have hlt := (ofBe32 bytes).toNat_lt
  have hpos : 1 ≤ (ofBe32 bytes).toNat := by
    rw [Nat.one_le_iff_ne_zero]; intro h0; exact hz (UInt32.toNat_inj.1 h0)
  unfold vecDec vecHeader
  rw [if_neg (by cases bytes <;> simp at hlen ⊢), if_neg (by omega), slice_zero (by omega), Res.ok_bind, ofBe32_take (by omega)]
  dsimp only
  by_cases hmax : (ofBe32 bytes).toNat = 2 ^ 32 - 1
  · rw [if_pos (by omega), if_pos hmax]; rfl
  · rw [if_neg (by omega), if_neg hmax, sliceFrom_ok (by omega), Res.ok_bind]
    cases hd : c.dec (bytes.drop 4) with
    | panic => exact absurd hd (h.total _)
    | err e => rfl
    | ok x =>
      simp only [Res.ok_bind, h.len]
      generalize hN : (ofBe32 bytes).toNat = N at *
      have hb : (N - 1) * n ≤ N * n := Nat.mul_le_mul_right _ (by omega)
      rw [usub_ok hpos, Res.ok_bind, umul_ok (by omega), Res.ok_bind, uadd_ok (by omega), Res.ok_bind]
      have hsplit : N * n = (N - 1) * n + n := by
        conv_lhs => rw [show N = N - 1 + 1 by omega, Nat.add_mul, Nat.one_mul]
      have hnp := h.pos
      by_cases hs : bytes.length ≤ 4 + (N - 1) * n
      · rw [if_pos hs, if_pos hs]; rfl
      · rw [if_neg (by omega), if_neg (by omega), Res.ok_bind]
        dsimp only
        congr 1
        unfold readSeq
        rw [List.range'_eq_map_range, mapRes_map]
        apply mapRes_congr
        intro i hi
        rw [List.mem_range] at hi
        have hi' : (1 + i) * n ≤ N * n := Nat.mul_le_mul_right _ (by omega)
        unfold vecItem
        rw [umul_ok (by omega), Res.ok_bind, uadd_ok (by omega), Res.ok_bind]
        rw [show 4 + (1 + i) * n = 4 + n + i * n by ring]

theorem vecEnc_ok (h : c.Fixed n) {l : List α} (hl : l ≠ []) (hlen : l.length < 2 ^ 32) :
    ∃ bs, mapRes c.enc l = .ok bs ∧ vecEnc c l = .ok (be32 l.length.toUInt32 ++ bs.flatten) ∧
      (be32 l.length.toUInt32 ++ bs.flatten).length = vecLen c l := by
  obtain ⟨bs, h1, h2⟩ := h.encMap l
  refine ⟨bs, h1, ?_, ?_⟩
  · unfold vecEnc
    rw [if_neg (by simpa using hl), u32TryFrom_ok hlen, Res.ok_bind, h1]; rfl
  · cases l with
    | nil => exact absurd rfl hl
    | cons x l => simp only [List.length_append, h2, be32_length, vecLen, h.len, List.length_cons]

theorem vecLen_eq (h : c.Fixed n) {l : List α} (hl : l ≠ []) : vecLen c l = 4 + l.length * n := by
  cases l with
  | nil => exact absurd rfl hl
  | cons x l => simp only [vecLen, h.len, List.length_cons]

theorem vecDec_round (h : c.Fixed n) {l : List α} (hl : l ≠ [])
    (hlen : l.length < 2 ^ 32 - 1) {b : Bytes} (hb : vecEnc c l = .ok b) (r : Bytes) (hB : b.length < t.modulus) :
    vecDec t c (b ++ r) = .ok l := by
  obtain ⟨bs, h1, h2, h3⟩ := vecEnc_ok h hl (by omega)
  rw [h2] at hb
  simp only [Res.ok.injEq] at hb
  subst hb
  obtain ⟨x, l, rfl⟩ := List.exists_cons_of_ne_nil hl
  have hflat : bs.flatten.length = (x :: l).length * n := by
    obtain ⟨bs', g1, g2⟩ := h.encMap (x :: l)
    rw [h1] at g1; simp only [Res.ok.injEq] at g1; subst g1; exact g2
  have hp := h.pos
  have hnat : (x :: l).length.toUInt32.toNat = (x :: l).length := toNat_toUInt32 (by omega)
  have hlong : 4 < (be32 (x :: l).length.toUInt32 ++ bs.flatten ++ r).length := by
    simp only [List.length_append, be32_length, hflat, List.length_cons, Nat.add_mul, Nat.one_mul]; omega
  have hcount : ofBe32 (be32 (x :: l).length.toUInt32 ++ bs.flatten ++ r) = (x :: l).length.toUInt32 := by
    rw [List.append_assoc, ofBe32_be32]
  rw [vecDec_red h hlong (by
    rw [hcount]; intro h0
    have := congrArg UInt32.toNat h0
    rw [hnat] at this
    simp at this) (by
    rw [hcount, hnat, ← hflat]
    rw [List.length_append, be32_length] at hB
    exact hB)]
  rw [hcount, hnat, if_neg (by omega)]
  simp only [mapRes] at h1
  obtain ⟨b, e1, he⟩ := Res.bind_eq_ok.1 h1
  obtain ⟨bs', e2, he⟩ := Res.bind_eq_ok.1 he
  simp only [Res.ok.injEq] at he
  subst he
  have hbl : b.length = n := by
    obtain ⟨b', e3, e4⟩ := h.enc x
    rw [e1] at e3; simp only [Res.ok.injEq] at e3; rw [e3]; exact e4
  have hd4 : (be32 (x :: l).length.toUInt32 ++ (b :: bs').flatten ++ r).drop 4 = b ++ (bs'.flatten ++ r) := by
    rw [List.append_assoc, List.drop_left' (be32_length _)]; simp
  rw [hd4, h.round x b _ e1, Res.ok_bind]
  have htot : (be32 (x :: l).length.toUInt32 ++ (b :: bs').flatten ++ r).length = 4 + (x :: l).length * n + r.length := by
    simp only [List.length_append, be32_length] at hflat ⊢
    rw [hflat]
  have hsub : (x :: l).length - 1 = l.length := by simp
  have hmul : (x :: l).length * n = l.length * n + n := by rw [List.length_cons, Nat.add_mul, Nat.one_mul]
  rw [hsub, htot, if_neg (by omega)]
  rw [readSeq_ok h (r := r) (by rw [htot]; omega) e2 (by
    rw [← List.drop_drop, hd4, ← hbl, List.drop_left])]
  rfl

theorem vecDec_inv (h : c.Fixed n) {b : Bytes} (hne : b ≠ []) (hz : ¬ ZeroCount b) (hov : ¬ CountOverflow t n b)
    {l : List α} (hd : vecDec t c b = .ok l) :
    l ≠ [] ∧ l.length < 2 ^ 32 - 1 ∧ vecLen c l ≤ b.length ∧ vecEnc c l = .ok (b.take (vecLen c l)) := by
  by_cases hlen : 4 < b.length
  · have hz' : ofBe32 b ≠ 0 := fun h0 => hz ⟨hlen, h0⟩
    rw [vecDec_red h hlen hz' (not_le.1 fun hm => hov ⟨hlen, hm⟩)] at hd
    have hpos : 1 ≤ (ofBe32 b).toNat := by
      rw [Nat.one_le_iff_ne_zero]; intro h0; exact hz' (UInt32.toNat_inj.1 h0)
    have hlt := (ofBe32 b).toNat_lt
    split at hd
    · simp at hd
    · obtain ⟨x, e1, hd⟩ := Res.bind_eq_ok.1 hd
      split at hd
      · simp at hd
      · obtain ⟨xs, e2, hd⟩ := Res.bind_eq_ok.1 hd
        simp only [Res.ok.injEq] at hd
        subst hd
        have hlen1 : n ≤ (b.drop 4).length := by
          by_contra hlt
          obtain ⟨e, he⟩ := h.short _ (not_le.1 hlt)
          rw [he] at e1; simp at e1
        rw [List.length_drop] at hlen1
        obtain ⟨g1, g2, bs, g3, g4⟩ := readSeq_inv h (by omega) e2
        have hcnt : (x :: xs).length = (ofBe32 b).toNat := by simp [g1]; omega
        have hL : vecLen c (x :: xs) = 4 + n + ((ofBe32 b).toNat - 1) * n := by
          rw [vecLen_eq h (by simp), hcnt]
          conv_lhs => rw [show (ofBe32 b).toNat = (ofBe32 b).toNat - 1 + 1 by omega, Nat.add_mul]
          omega
        refine ⟨by simp, by omega, by omega, ?_⟩
        unfold vecEnc
        rw [if_neg (by simp), u32TryFrom_ok (by omega), Res.ok_bind]
        simp only [mapRes]
        rw [h.canon _ _ e1, g3]
        simp only [Res.ok_bind, Res.ok.injEq, List.flatten_cons]
        rw [hcnt, g4, hL]
        have : (ofBe32 b).toNat.toUInt32 = ofBe32 b := by
          apply UInt32.toNat_inj.1; rw [toNat_toUInt32 hlt]
        rw [this, be32_ofBe32 (by omega), List.take_add, List.take_add, List.append_assoc]
  · unfold vecDec vecHeader at hd
    rw [if_neg (by simpa using hne), if_pos (by omega)] at hd
    simp [Res.err_bind] at hd

theorem vecDec_total (h : c.Fixed n) {b : Bytes} (hz : ¬ ZeroCount b) (hov : ¬ CountOverflow t n b) :
    vecDec t c b ≠ .panic := by
  by_cases hlen : 4 < b.length
  · have hz' : ofBe32 b ≠ 0 := fun h0 => hz ⟨hlen, h0⟩
    rw [vecDec_red h hlen hz' (not_le.1 fun hm => hov ⟨hlen, hm⟩)]
    split
    · simp
    · cases hd : c.dec (b.drop 4) with
      | panic => exact absurd hd (h.total _)
      | err e => simp
      | ok x =>
        have hlen1 : n ≤ (b.drop 4).length := by
          by_contra hlt
          obtain ⟨e, he⟩ := h.short _ (not_le.1 hlt)
          rw [he] at hd; simp at hd
        rw [List.length_drop] at hlen1
        rw [Res.ok_bind]
        split
        · simp
        · have := readSeq_total h (bytes := b) (o := 4 + n) (k := (ofBe32 b).toNat - 1) (by omega)
          cases hr : readSeq c n b (4 + n) ((ofBe32 b).toNat - 1) with
          | panic => exact absurd hr this
          | err e => simp
          | ok x => simp
  · unfold vecDec vecHeader
    split
    · simp
    · rw [if_pos (by omega)]; simp

/-- Behaviour on a zero count. -/
theorem vecDec_zero (h : c.Fixed n) {b : Bytes} (hz : ZeroCount b) (hB : b.length + n < t.modulus) :
    (∃ e, c.dec (b.drop 4) = .err e ∧ vecDec t c b = .err e) ∨
    (∃ x, c.dec (b.drop 4) = .ok x ∧ vecDec t c b =
      if t.checked then .panic else if n ≤ 4 ∧ 4 - n < b.length then .ok [x] else .err (.deserialization "deserializing element failed. Data altered?")) := by
  obtain ⟨hlen, h0⟩ := hz
  unfold vecDec vecHeader
  rw [if_neg (by cases b <;> simp at hlen ⊢), if_neg (by omega), slice_zero (by omega), Res.ok_bind, ofBe32_take (by omega), h0]
  dsimp only
  rw [if_neg (by simp), sliceFrom_ok (by omega), Res.ok_bind]
  cases hd : c.dec (b.drop 4) with
  | panic => exact absurd hd (h.total _)
  | err e => exact Or.inl ⟨e, rfl, rfl⟩
  | ok x =>
    refine Or.inr ⟨x, rfl, ?_⟩
    simp only [Res.ok_bind, h.len]
    have hz0 : (0 : UInt32).toNat = 0 := rfl
    rw [hz0]
    unfold Target.usub
    rw [if_neg (by omega)]
    by_cases hc : t.checked
    · rw [if_pos hc, if_pos hc]; rfl
    · rw [if_neg hc, if_neg hc, Res.ok_bind]
      have hmod : (0 + t.modulus - 1) % t.modulus = t.modulus - 1 := by
        rw [Nat.zero_add]; exact Nat.mod_eq_of_lt (by omega)
      have hp := h.pos
      have hmul : (t.umul (t.modulus - 1) n : Out Nat) = .ok (t.modulus - n) := by
        unfold Target.umul
        by_cases h1 : n = 1
        · subst h1; rw [if_pos (by omega)]; simp
        · rw [if_neg (by
            have : 2 * (t.modulus - 1) ≤ (t.modulus - 1) * n := by rw [Nat.mul_comm]; exact Nat.mul_le_mul_left _ (by omega)
            omega), if_neg hc]
          congr 1
          have : (t.modulus - 1) * n = (t.modulus - n) + t.modulus * (n - 1) := by
            obtain ⟨k, rfl⟩ : ∃ k, n = k + 1 := ⟨n - 1, by omega⟩
            obtain ⟨M, hM⟩ : ∃ M, t.modulus = M + 1 + k := ⟨t.modulus - 1 - k, by omega⟩
            rw [hM]
            simp only [Nat.add_sub_cancel]
            rw [show M + 1 + k - 1 = M + k by omega, show M + 1 + k - (k + 1) = M by omega]
            ring
          rw [this, Nat.add_mul_mod_self_left, Nat.mod_eq_of_lt (by omega)]
      rw [hmod, hmul, Res.ok_bind]
      unfold Target.uadd
      by_cases h4 : n ≤ 4
      · rw [if_neg (by omega), if_neg hc, Res.ok_bind]
        have : (4 + (t.modulus - n)) % t.modulus = 4 - n := by
          rw [show 4 + (t.modulus - n) = (4 - n) + t.modulus by omega, Nat.add_mod_right, Nat.mod_eq_of_lt (by omega)]
        rw [this]
        by_cases hb : 4 - n < b.length
        · rw [if_neg (by omega), if_pos ⟨h4, hb⟩, Res.ok_bind]; rfl
        · rw [if_pos (by omega), if_neg (by tauto)]; rfl
      · rw [if_pos (by omega), Res.ok_bind, if_pos (by omega), if_neg (by tauto)]; rfl

end

/-! ### Matrices -/

section
variable {t : Target} {c : Codec α} {n : Nat}

/-- Reading `k` rows of `w` elements. -/
def readRows (c : Codec α) (n : Nat) (bytes : Bytes) (o w k : Nat) : Out (List (List α)) :=
  mapRes (fun r => readSeq c n bytes (o + r * (w * n)) w) (List.range k)

theorem readRows_succ (c : Codec α) (n : Nat) (bytes : Bytes) (o w k : Nat) :
    readRows c n bytes o w (k + 1) = (do
      let x ← readSeq c n bytes o w
      let xs ← readRows c n bytes (o + w * n) w k
      .ok (x :: xs)) := by
  unfold readRows
  rw [List.range_succ_eq_map]
  simp only [mapRes, mapRes_map, Nat.zero_mul, Nat.add_zero]
  have : ∀ i, o + (i + 1) * (w * n) = o + w * n + i * (w * n) := fun i => by ring
  simp only [Nat.succ_eq_add_one, this]

theorem encMap_length (h : c.Fixed n) {l : List α} {bs : List Bytes} (hb : mapRes c.enc l = .ok bs) :
    bs.flatten.length = l.length * n := by
  obtain ⟨bs', g1, g2⟩ := h.encMap l
  rw [hb] at g1; simp only [Res.ok.injEq] at g1; subst g1; exact g2

theorem readRows_ok (h : c.Fixed n) {bytes r : Bytes} {o w : Nat} {rows : List (List α)} {parts : List (List Bytes)}
    (ho : o ≤ bytes.length) (hw : ∀ row ∈ rows, row.length = w) (he : mapRes (fun r => mapRes c.enc r) rows = .ok parts)
    (hb : bytes.drop o = (parts.map List.flatten).flatten ++ r) :
    readRows c n bytes o w rows.length = .ok rows := by
  induction rows generalizing o parts with
  | nil => rfl
  | cons x xs ih =>
    rw [List.length_cons, readRows_succ]
    simp only [mapRes] at he
    obtain ⟨b, e1, he⟩ := Res.bind_eq_ok.1 he
    obtain ⟨bs', e2, he⟩ := Res.bind_eq_ok.1 he
    simp only [Res.ok.injEq] at he
    subst he
    have hl := encMap_length h e1
    rw [hw x (by simp)] at hl
    simp only [List.map_cons, List.flatten_cons, List.append_assoc] at hb
    have hx := readSeq_ok h ho e1 hb
    rw [hw x (by simp)] at hx
    rw [hx, Res.ok_bind]
    have hle : o + w * n ≤ bytes.length := by
      have := congrArg List.length hb
      simp only [List.length_drop, List.length_append] at this
      omega
    rw [ih hle (fun row hrow => hw row (by simp [hrow])) e2 (by rw [← List.drop_drop, hb, ← hl, List.drop_left])]
    rfl

theorem readRows_inv (h : c.Fixed n) {bytes : Bytes} {o w k : Nat} {rows : List (List α)}
    (ho : o ≤ bytes.length) (hr : readRows c n bytes o w k = .ok rows) :
    rows.length = k ∧ (∀ row ∈ rows, row.length = w) ∧ o + k * (w * n) ≤ bytes.length ∧
      ∃ parts, mapRes (fun r => mapRes c.enc r) rows = .ok parts ∧
        (parts.map List.flatten).flatten = (bytes.drop o).take (k * (w * n)) := by
  induction k generalizing o rows with
  | zero =>
    simp only [readRows, List.range_zero, mapRes, Res.ok.injEq] at hr
    subst hr
    exact ⟨rfl, by simp, by omega, [], rfl, by simp⟩
  | succ k ih =>
    rw [readRows_succ] at hr
    obtain ⟨x, e1, hr⟩ := Res.bind_eq_ok.1 hr
    obtain ⟨xs', e2, hr⟩ := Res.bind_eq_ok.1 hr
    simp only [Res.ok.injEq] at hr
    subst hr
    obtain ⟨f1, f2, b, f3, f4⟩ := readSeq_inv h ho e1
    obtain ⟨g1, g2, g3, bs, g4, g5⟩ := ih (o := o + w * n) f2 e2
    refine ⟨by simp [g1], ?_, by rw [Nat.add_mul]; omega, b :: bs, ?_, ?_⟩
    · intro row hrow
      rcases List.mem_cons.1 hrow with rfl | hrow
      · exact f1
      · exact g2 row hrow
    · simp only [mapRes]; rw [f3, g4]; rfl
    · rw [List.map_cons, List.flatten_cons, g5, f4, Nat.add_mul, Nat.one_mul, Nat.add_comm (k * _) _, List.take_add,
        List.drop_drop]

theorem readRows_total (h : c.Fixed n) {bytes : Bytes} {o w k : Nat} (ho : o ≤ bytes.length) :
    readRows c n bytes o w k ≠ .panic := by
  induction k generalizing o with
  | zero => simp [readRows]
  | succ k ih =>
    rw [readRows_succ]
    cases hd : readSeq c n bytes o w with
    | panic => exact absurd hd (readSeq_total h ho)
    | err e => simp
    | ok x =>
      rw [Res.ok_bind]
      have := ih (o := o + w * n) (readSeq_inv h ho hd).2.1
      cases hr : readRows c n bytes (o + w * n) w k with
      | panic => exact absurd hr this
      | err e => simp
      | ok x => simp

theorem readLabels_ok {bytes : Bytes} {o k : Nat} (h : o + k * 4 ≤ bytes.length) :
    ∃ us, readSeq u32Codec 4 bytes o k = .ok us := by
  induction k generalizing o with
  | zero => exact ⟨[], rfl⟩
  | succ k ih =>
    obtain ⟨us, hus⟩ := ih (o := o + 4) (by omega)
    refine ⟨ofBe32 (bytes.drop o) :: us, ?_⟩
    rw [readSeq_succ, sliceFrom_ok (by omega), Res.ok_bind, hus]
    have : u32Codec.dec (bytes.drop o) = .ok (ofBe32 (bytes.drop o)) := by
      simp only [u32Codec]
      rw [if_neg (by simp; omega), slice_zero (by simp; omega), Res.ok_bind, ofBe32_take (by simp; omega)]
    rw [this]; rfl

theorem hget_labels {vec : List UInt32} {u : UInt32} : hget vec.zipIdx.reverse u = none ↔ u ∉ vec := by
  unfold hget
  rw [Option.map_eq_none_iff, List.find?_eq_none]
  constructor
  · intro h hu
    obtain ⟨i, hi, rfl⟩ := List.getElem_of_mem hu
    exact h (vec[i], i) (by rw [List.mem_reverse, List.mem_zipIdx_iff_getElem?]; exact List.getElem?_eq_getElem hi) (by simp)
  · rintro h ⟨a, i⟩ hp
    rw [List.mem_reverse, List.mem_zipIdx_iff_getElem?] at hp
    simp only [decide_eq_true_eq]
    rintro rfl
    exact h (List.mem_of_getElem? hp)

theorem hinsert_labels {vec : List UInt32} {u : UInt32} (h : u ∉ vec) :
    hinsert vec.zipIdx.reverse u vec.length = (vec ++ [u]).zipIdx.reverse := by
  unfold hinsert
  rw [List.zipIdx_append, List.reverse_append]
  simp only [List.zipIdx_cons, List.zipIdx_nil, List.reverse_cons, List.reverse_nil, List.nil_append, List.singleton_append,
    Nat.zero_add]
  congr 1
  rw [List.filter_eq_self]
  rintro ⟨a, i⟩ hp
  rw [List.mem_reverse, List.mem_zipIdx_iff_getElem?] at hp
  simp only [decide_eq_true_eq]
  rintro rfl
  exact h (List.mem_of_getElem? hp)

theorem mspLabels_spec {bytes : Bytes} {k : Nat} (vec : List UInt32) (hv : vec.Nodup)
    (hl : 8 + (vec.length + k) * 4 < t.modulus) (hlen : 8 + (vec.length + k) * 4 ≤ bytes.length) {us : List UInt32}
    (hus : readSeq u32Codec 4 bytes (8 + vec.length * 4) k = .ok us) :
    mspLabels t bytes (List.range' vec.length k) vec vec.zipIdx.reverse =
      if (vec ++ us).Nodup then .ok (vec ++ us, (vec ++ us).zipIdx.reverse) else .err (.deserialization "error deserializing MSP, leaf already inserted") := by
  induction k generalizing vec us with
  | zero =>
    simp only [readSeq, List.range_zero, mapRes, Res.ok.injEq] at hus
    subst hus
    simp [mspLabels, hv]
  | succ k ih =>
    rw [readSeq_succ, sliceFrom_ok (by omega), Res.ok_bind] at hus
    have hdec : u32Codec.dec (bytes.drop (8 + vec.length * 4)) = .ok (ofBe32 (bytes.drop (8 + vec.length * 4))) := by
      simp only [u32Codec]
      rw [if_neg (by simp; omega), slice_zero (by simp; omega), Res.ok_bind, ofBe32_take (by simp; omega)]
    rw [hdec, Res.ok_bind] at hus
    obtain ⟨us', e1, hus⟩ := Res.bind_eq_ok.1 hus
    simp only [Res.ok.injEq] at hus
    subst hus
    rw [List.range'_succ, mspLabels, umul_ok (by omega), Res.ok_bind, uadd_ok (by omega), Res.ok_bind, uadd_ok (by omega),
      Res.ok_bind, slice_ok (by omega), Res.ok_bind]
    have hs : ofBe32 ((bytes.take (12 + vec.length * 4)).drop (8 + vec.length * 4)) = ofBe32 (bytes.drop (8 + vec.length * 4)) := by
      rw [List.drop_take, show 12 + vec.length * 4 - (8 + vec.length * 4) = 4 by omega, ofBe32_take (by simp; omega)]
    rw [hs]
    set u := ofBe32 (bytes.drop (8 + vec.length * 4))
    dsimp only
    by_cases hu : u ∈ vec
    · have : ∃ j, hget vec.zipIdx.reverse u = some j := by
        rw [← Option.ne_none_iff_exists']
        intro h0; exact hget_labels.1 h0 hu
      obtain ⟨j, hj⟩ := this
      rw [hj, if_neg]
      intro hnd
      rw [List.nodup_append] at hnd
      exact hnd.2.2 u hu u (by simp) rfl
    · rw [hget_labels.2 hu]
      dsimp only
      rw [hinsert_labels hu]
      have hv' : (vec ++ [u]).Nodup := by
        rw [List.nodup_append]; exact ⟨hv, by simp, by rintro a ha b hb rfl; simp at hb; exact hu (hb ▸ ha)⟩
      have hlen' : (vec ++ [u]).length = vec.length + 1 := by simp
      have := ih (vec ++ [u]) hv' (by rw [hlen']; omega) (by rw [hlen']; omega) (us := us') (by
        rw [hlen', show 8 + (vec.length + 1) * 4 = 8 + vec.length * 4 + 4 by ring]; exact e1)
      rw [hlen'] at this
      rw [this, List.append_assoc]
      rfl

/-- `mspHeader` on a long enough input. -/
theorem mspHeader_spec {bytes : Bytes} (h8 : 8 ≤ bytes.length) (hov : 8 + (ofBe32 bytes).toNat * 4 < t.modulus)
    (hR : 8 + (ofBe32 bytes).toNat * 4 ≤ bytes.length) {us : List UInt32}
    (hus : readSeq u32Codec 4 bytes 8 (ofBe32 bytes).toNat = .ok us) :
    mspHeader t bytes = if us.Nodup then .ok ((ofBe32 bytes).toNat, (ofBe32 (bytes.drop 4)).toNat, us, us.zipIdx.reverse)
      else .err (.deserialization "error deserializing MSP, leaf already inserted") := by
  unfold mspHeader
  rw [if_neg (by omega), slice_zero (by omega), Res.ok_bind, slice_ok (by omega), Res.ok_bind, ofBe32_take (by omega)]
  have : ofBe32 ((bytes.take 8).drop 4) = ofBe32 (bytes.drop 4) := by
    rw [List.drop_take, ofBe32_take (by simp; omega)]
  rw [this]
  dsimp only
  rw [umul_ok (by omega), Res.ok_bind, uadd_ok (by omega), Res.ok_bind, if_neg (by omega)]
  have := mspLabels_spec (t := t) (bytes := bytes) (k := (ofBe32 bytes).toNat) [] (by simp) (by simpa using hov)
    (by simpa using hR) (us := us) (by simpa using hus)
  simp only [List.length_nil, List.zipIdx_nil, List.reverse_nil, List.nil_append] at this
  rw [List.range_eq_range', this]
  split <;> rfl

theorem mspHeader_cases (bytes : Bytes) (hov : 8 + (ofBe32 bytes).toNat * 4 < t.modulus) :
    (∃ e, mspHeader t bytes = .err e) ∨
    (8 + (ofBe32 bytes).toNat * 4 ≤ bytes.length ∧ ∃ us, readSeq u32Codec 4 bytes 8 (ofBe32 bytes).toNat = .ok us ∧ us.Nodup ∧
      mspHeader t bytes = .ok ((ofBe32 bytes).toNat, (ofBe32 (bytes.drop 4)).toNat, us, us.zipIdx.reverse)) := by
  by_cases h8 : bytes.length < 8
  · left; exact ⟨_, by unfold mspHeader; rw [if_pos h8]⟩
  · by_cases hR : 8 + (ofBe32 bytes).toNat * 4 ≤ bytes.length
    · obtain ⟨us, hus⟩ := readLabels_ok hR
      have := mspHeader_spec (by omega) hov hR hus
      split at this
      · rename_i hnd
        exact Or.inr ⟨hR, us, hus, hnd, this⟩
      · exact Or.inl ⟨_, this⟩
    · left
      refine ⟨.invalidSize "invalid MSP size read from bytes", ?_⟩
      unfold mspHeader
      rw [if_neg (by omega), slice_zero (by omega), Res.ok_bind, slice_ok (by omega), Res.ok_bind, ofBe32_take (by omega)]
      dsimp only
      rw [umul_ok (by omega), Res.ok_bind, uadd_ok (by omega), Res.ok_bind, if_pos (by omega)]

/-- `mspDec` after the header. -/
theorem mspDec_red (h : c.Fixed n) {bytes : Bytes} {R C : Nat}
    (hB : 8 + 4 * R + R * C * n < t.modulus) (hB' : 8 + 4 * R + C * n < t.modulus) (hR : 8 + R * 4 ≤ bytes.length) {us : List UInt32} {map : List (UInt32 × Nat)}
    (hh : mspHeader t bytes = .ok (R, C, us, map)) :
    mspDec t c bytes = (do
      let first ← c.dec (bytes.drop (8 + 4 * R))
      if bytes.length < 8 + 4 * R + R * C * n then .err (.invalidSize "invalid matrix size read from bytes")
      else (do
        let rest ← readSeq c n bytes (8 + 4 * R + n) (C - 1)
        let rows ← readRows c n bytes (8 + 4 * R + C * n) C (R - 1)
        .ok { nbRow := R, nbCol := C, matrix := (first :: rest) :: rows, attrToRow := map, rowToAttr := us })) := by
  have hbase : mspBase t R = .ok (8 + 4 * R) := by
    unfold mspBase
    rw [umul_ok (by omega), Res.ok_bind, uadd_ok (by omega)]
  unfold mspDec
  rw [hh, Res.ok_bind]
  dsimp only
  rw [hbase, Res.ok_bind, sliceFrom_ok (by omega), Res.ok_bind]
  cases hd : c.dec (bytes.drop (8 + 4 * R)) with
  | panic => exact absurd hd (h.total _)
  | err e => rfl
  | ok first =>
    simp only [Res.ok_bind, h.len]
    have hRC : R * C ≤ R * C * n := Nat.le_mul_of_pos_right _ h.pos
    rw [umul_ok (by omega), Res.ok_bind, umul_ok (by omega), Res.ok_bind, uadd_ok (by omega), Res.ok_bind]
    split
    · rfl
    · have e1 : mapRes (mspEntry t c bytes R n) (List.range' 1 (C - 1)) = readSeq c n bytes (8 + 4 * R + n) (C - 1) := by
        unfold readSeq
        rw [List.range'_eq_map_range, mapRes_map]
        apply mapRes_congr
        intro i hi
        rw [List.mem_range] at hi
        have : (1 + i) * n ≤ C * n := Nat.mul_le_mul_right _ (by omega)
        unfold mspEntry
        rw [hbase, Res.ok_bind, umul_ok (by omega), Res.ok_bind, uadd_ok (by omega), Res.ok_bind]
        rw [show 8 + 4 * R + (1 + i) * n = 8 + 4 * R + n + i * n by ring]
      have e2 : mapRes (fun r => mapRes (fun col => do
          let rn ← t.umul r C
          let k ← t.uadd rn col
          mspEntry t c bytes R n k) (List.range C)) (List.range' 1 (R - 1)) =
          readRows c n bytes (8 + 4 * R + C * n) C (R - 1) := by
        unfold readRows
        rw [List.range'_eq_map_range, mapRes_map]
        apply mapRes_congr
        intro r hr
        rw [List.mem_range] at hr
        unfold readSeq
        apply mapRes_congr
        intro i hi
        rw [List.mem_range] at hi
        have h1 : (1 + r) * C + i < R * C := by
          have : (1 + r + 1) * C ≤ R * C := Nat.mul_le_mul_right _ (by omega)
          rw [Nat.add_mul (1 + r)] at this
          omega
        have h2 : ((1 + r) * C + i) * n ≤ R * C * n := Nat.mul_le_mul_right _ (by omega)
        unfold mspEntry
        rw [umul_ok (by omega), Res.ok_bind, uadd_ok (by omega), Res.ok_bind, hbase, Res.ok_bind, umul_ok (by omega), Res.ok_bind,
          uadd_ok (by omega), Res.ok_bind]
        rw [show 8 + 4 * R + ((1 + r) * C + i) * n = 8 + 4 * R + C * n + r * (C * n) + i * n by ring]
      rw [e1, e2]

theorem flattenLabels (us : List UInt32) : mapRes u32Codec.enc us = .ok (us.map be32) :=
  mapRes_of_ok fun _ _ => rfl

theorem mspEnc_ok (h : c.Fixed n) {m : Msp α} (hm : m.Regular) (hr : m.nbRow < 2 ^ 32) (hc : m.nbCol < 2 ^ 32) :
    ∃ parts, mapRes (fun r => mapRes c.enc r) m.matrix = .ok parts ∧
      mspEnc c m = .ok (be32 m.nbRow.toUInt32 ++ be32 m.nbCol.toUInt32 ++ (m.rowToAttr.map be32).flatten ++
        (parts.map List.flatten).flatten) ∧
      (parts.map List.flatten).flatten.length = m.nbRow * (m.nbCol * n) ∧
      mspLen c m = 8 + m.nbRow * 4 + m.nbRow * (m.nbCol * n) := by
  have hparts : ∀ rows : List (List α), (∀ r ∈ rows, r.length = m.nbCol) →
      ∃ parts, mapRes (fun r => mapRes c.enc r) rows = .ok parts ∧
        (parts.map List.flatten).flatten.length = rows.length * (m.nbCol * n) := by
    intro rows
    induction rows with
    | nil => exact fun _ => ⟨[], rfl, by simp⟩
    | cons r rows ih =>
      intro hw
      obtain ⟨parts, h1, h2⟩ := ih fun r hr => hw r (by simp [hr])
      obtain ⟨bs, h3, h4⟩ := h.encMap r
      refine ⟨bs :: parts, by simp [mapRes, h1, h3], ?_⟩
      simp only [List.map_cons, List.flatten_cons, List.length_append, h2, h4, hw r (by simp), List.length_cons]
      ring
  obtain ⟨parts, h1, h2⟩ := hparts m.matrix hm.width
  rw [hm.rows] at h2
  have hrp := hm.row_pos
  have hcp := hm.col_pos
  obtain ⟨r0, rows, hmat⟩ : ∃ r0 rows, m.matrix = r0 :: rows := by
    have := hm.rows
    cases hx : m.matrix with
    | nil => rw [hx] at this; simp at this; omega
    | cons a b => exact ⟨a, b, rfl⟩
  obtain ⟨x, xs, hrow⟩ : ∃ x xs, r0 = x :: xs := by
    have := hm.width r0 (by rw [hmat]; simp)
    cases hx : r0 with
    | nil => rw [hx] at this; simp at this; omega
    | cons a b => exact ⟨a, b, rfl⟩
  refine ⟨parts, h1, ?_, h2, ?_⟩
  · unfold mspEnc
    rw [h1, u32TryFrom_ok hr, u32TryFrom_ok hc, hmat, hrow]
    rfl
  · unfold mspLen
    rw [hmat, hrow]
    simp only [h.len]
    ring

theorem msp_len (h : c.Fixed n) {m : Msp α} (hm : m.Regular) (hr : m.nbRow < 2 ^ 32) (hc : m.nbCol < 2 ^ 32) {b : Bytes}
    (hb : mspEnc c m = .ok b) : b.length = mspLen c m := by
  obtain ⟨parts, h1, h2, h3, h4⟩ := mspEnc_ok h hm hr hc
  rw [h2] at hb
  simp only [Res.ok.injEq] at hb
  have hlab := encMap_length u32Codec_fixed (flattenLabels m.rowToAttr)
  rw [hm.labels] at hlab
  rw [← hb, h4]
  simp only [List.length_append, be32_length, h3, hlab]

theorem mspDec_round (h : c.Fixed n) {m : Msp α} (hm : m.Regular) (hr : m.nbRow < 2 ^ 32)
    (hc : m.nbCol < 2 ^ 32) {b : Bytes} (hb : mspEnc c m = .ok b) (r : Bytes) (hB : (b ++ r).length < t.modulus) :
    mspDec t c (b ++ r) = .ok m := by
  obtain ⟨parts, h1, h2, h3, h4⟩ := mspEnc_ok h hm hr hc
  have hlb := msp_len h hm hr hc hb
  rw [h2] at hb
  simp only [Res.ok.injEq] at hb
  have hlab := encMap_length u32Codec_fixed (flattenLabels m.rowToAttr)
  rw [hm.labels] at hlab
  have hrp := hm.row_pos
  have hcp := hm.col_pos
  have hlen : (b ++ r).length = 8 + m.nbRow * 4 + m.nbRow * (m.nbCol * n) + r.length := by
    rw [List.length_append, hlb, h4]
  have hR : (ofBe32 (b ++ r)).toNat = m.nbRow := by
    rw [← hb]; simp only [List.append_assoc]; rw [ofBe32_be32, toNat_toUInt32 hr]
  have hd4 : (b ++ r).drop 4 = be32 m.nbCol.toUInt32 ++ ((m.rowToAttr.map be32).flatten ++
        ((parts.map List.flatten).flatten ++ r)) := by
    rw [← hb]; simp only [List.append_assoc]; rw [List.drop_left' (be32_length _)]
  have hC : (ofBe32 ((b ++ r).drop 4)).toNat = m.nbCol := by
    rw [hd4, ofBe32_be32, toNat_toUInt32 hc]
  have hd8 : (b ++ r).drop 8 = (m.rowToAttr.map be32).flatten ++ ((parts.map List.flatten).flatten ++ r) := by
    rw [show 8 = 4 + 4 by rfl, ← List.drop_drop, hd4, List.drop_left' (be32_length _)]
  have hdb : (b ++ r).drop (8 + 4 * m.nbRow) = (parts.map List.flatten).flatten ++ r := by
    rw [← List.drop_drop, hd8, List.drop_left' (by rw [hlab]; ring)]
  have hlabels : readSeq u32Codec 4 (b ++ r) 8 m.nbRow = .ok m.rowToAttr := by
    have := readSeq_ok u32Codec_fixed (by omega) (flattenLabels m.rowToAttr) hd8
    rwa [hm.labels] at this
  have hhead := mspHeader_spec (t := t) (bytes := b ++ r) (by omega) (by rw [hR]; omega) (by rw [hR]; omega) (by rw [hR]; exact hlabels)
  rw [if_pos hm.nodup, hR, hC] at hhead
  have hone : m.nbCol * n ≤ m.nbRow * (m.nbCol * n) := Nat.le_mul_of_pos_left _ hrp
  rw [mspDec_red h (by rw [Nat.mul_assoc]; omega) (by omega) (by omega) hhead]
  -- split the matrix
  have hrows := readRows_ok h (by omega) hm.width h1 hdb
  obtain ⟨R, hR'⟩ : ∃ R, m.nbRow = R + 1 := ⟨m.nbRow - 1, by omega⟩
  obtain ⟨C, hC'⟩ : ∃ C, m.nbCol = C + 1 := ⟨m.nbCol - 1, by omega⟩
  rw [hm.rows, hR', readRows_succ, hC', readSeq_succ] at hrows
  rw [hR'] at hdb hlen ⊢
  rw [hC'] at hlen ⊢
  rw [sliceFrom_ok (by omega)] at hrows
  simp only [Res.ok_bind] at hrows
  obtain ⟨row, e1, hrows⟩ := Res.bind_eq_ok.1 hrows
  obtain ⟨first, e3, e1⟩ := Res.bind_eq_ok.1 e1
  obtain ⟨rest, e4, e1⟩ := Res.bind_eq_ok.1 e1
  obtain ⟨rows, e2, hrows⟩ := Res.bind_eq_ok.1 hrows
  simp only [Res.ok.injEq] at e1 hrows
  rw [e3, Res.ok_bind, if_neg (by rw [hlen]; rw [Nat.mul_assoc]; omega), Nat.add_sub_cancel, e4, Res.ok_bind, Nat.add_sub_cancel, e2,
    Res.ok_bind, e1, hrows, ← hm.index, ← hR', ← hC']

/-- The announced dimensions of a matrix with entries of `n` bytes do not fit in the address space. -/
def DimOverflow (t : Target) (n : Nat) (b : Bytes) : Prop :=
  t.modulus ≤ 8 + (ofBe32 b).toNat * 4 ∨ (8 + (ofBe32 b).toNat * 4 ≤ b.length ∧
    (t.modulus ≤ 8 + 4 * (ofBe32 b).toNat + (ofBe32 b).toNat * (ofBe32 (b.drop 4)).toNat * n ∨
      t.modulus ≤ 8 + 4 * (ofBe32 b).toNat + (ofBe32 (b.drop 4)).toNat * n))

theorem not_dimOverflow (ht : 64 ≤ t.bits) (hn : n ≤ 32) {b : Bytes} (hB : b.length < 2 ^ 29) : ¬ DimOverflow t n b := by
  have h64 := two64_le ht
  have hlt := (ofBe32 b).toNat_lt
  have hltC := (ofBe32 (b.drop 4)).toNat_lt
  unfold DimOverflow
  generalize (ofBe32 b).toNat = R at *
  generalize (ofBe32 (b.drop 4)).toNat = C at *
  rintro (h | ⟨hR, h | h⟩)
  · omega
  · have hRC : R * C ≤ (2 ^ 27 - 3) * 2 ^ 32 := Nat.mul_le_mul (by omega) (by omega)
    have hRCn : R * C * n ≤ (2 ^ 27 - 3) * 2 ^ 32 * 32 := Nat.mul_le_mul hRC hn
    omega
  · have : C * n ≤ 2 ^ 32 * 32 := Nat.mul_le_mul (by omega) hn
    omega

theorem mspDec_cases (h : c.Fixed n) {b : Bytes} (hov : ¬ DimOverflow t n b) :
    (∃ e, mspDec t c b = .err e) ∨
    (∃ m, mspDec t c b = .ok m ∧ m.nbRow = (ofBe32 b).toNat ∧ m.nbCol = (ofBe32 (b.drop 4)).toNat ∧
      (0 < m.nbRow → 0 < m.nbCol → m.Regular ∧ mspLen c m ≤ b.length ∧ mspEnc c m = .ok (b.take (mspLen c m)))) := by
  rcases mspHeader_cases (t := t) b (not_le.1 fun h => hov (Or.inl h)) with ⟨e, he⟩ | ⟨hR, us, hus, hnd, hh⟩
  · left; exact ⟨e, by unfold mspDec; rw [he]; rfl⟩
  · have hov1 := not_le.1 fun h => hov (Or.inr ⟨hR, Or.inl h⟩)
    have hov2 := not_le.1 fun h => hov (Or.inr ⟨hR, Or.inr h⟩)
    clear hov
    have hlt := (ofBe32 b).toNat_lt
    have hltC := (ofBe32 (b.drop 4)).toNat_lt
    generalize hRdef : (ofBe32 b).toNat = R at *
    generalize hCdef : (ofBe32 (b.drop 4)).toNat = C at *
    rw [mspDec_red h hov1 hov2 hR hh]
    cases hd : c.dec (b.drop (8 + 4 * R)) with
    | panic => exact absurd hd (h.total _)
    | err e => exact Or.inl ⟨e, rfl⟩
    | ok first =>
      have hlen1 : n ≤ (b.drop (8 + 4 * R)).length := by
        by_contra hlt
        obtain ⟨e, he⟩ := h.short _ (not_le.1 hlt)
        rw [he] at hd; simp at hd
      rw [List.length_drop] at hlen1
      rw [Res.ok_bind]
      split
      · exact Or.inl ⟨_, rfl⟩
      · rename_i hsz
        cases hr : readSeq c n b (8 + 4 * R + n) (C - 1) with
        | panic => exact absurd hr (readSeq_total h (by omega))
        | err e => exact Or.inl ⟨e, rfl⟩
        | ok rest =>
          rw [Res.ok_bind]
          by_cases hpos : 0 < R ∧ 0 < C
          · obtain ⟨hRp, hCp⟩ := hpos
            obtain ⟨g1, g2, _⟩ := readSeq_inv h (by omega) hr
            have hcn : C * n = n + (C - 1) * n := by
              conv_lhs => rw [show C = C - 1 + 1 by omega, Nat.add_mul]
              omega
            cases hrs : readRows c n b (8 + 4 * R + C * n) C (R - 1) with
            | panic => exact absurd hrs (readRows_total h (by omega))
            | err e => exact Or.inl ⟨e, rfl⟩
            | ok rows =>
              refine Or.inr ⟨_, rfl, rfl, rfl, fun _ _ => ?_⟩
              have hall : readRows c n b (8 + 4 * R) C R = .ok ((first :: rest) :: rows) := by
                conv_lhs => rw [show R = R - 1 + 1 by omega, readRows_succ]
                have : readSeq c n b (8 + 4 * (R - 1 + 1)) C = .ok (first :: rest) := by
                  rw [show R - 1 + 1 = R by omega]
                  conv_lhs => rw [show C = C - 1 + 1 by omega, readSeq_succ]
                  rw [sliceFrom_ok (by omega), Res.ok_bind, hd, Res.ok_bind, hr]; rfl
                rw [this, Res.ok_bind, show R - 1 + 1 = R by omega, hrs]; rfl
              obtain ⟨f1, f2, f3, parts, f4, f5⟩ := readRows_inv h (by omega) hall
              obtain ⟨l1, l2, bs, l3, l4⟩ := readSeq_inv u32Codec_fixed (by omega) hus
              rw [flattenLabels] at l3
              simp only [Res.ok.injEq] at l3
              subst l3
              set m : Msp α := { nbRow := R, nbCol := C, matrix := (first :: rest) :: rows, attrToRow := us.zipIdx.reverse, rowToAttr := us } with hm
              have hreg : m.Regular := ⟨f1, l1, f2, hRp, hCp, hnd, rfl⟩
              obtain ⟨parts', p1, p2, p3, p4⟩ := mspEnc_ok h hreg hlt hltC
              have hpp : parts' = parts := by
                have : m.matrix = (first :: rest) :: rows := rfl
                rw [this, f4] at p1
                simpa using p1.symm
              subst hpp
              refine ⟨hreg, by rw [p4]; show 8 + R * 4 + R * (C * n) ≤ _; omega, ?_⟩
              rw [p2, p4]
              show Res.ok (be32 R.toUInt32 ++ be32 C.toUInt32 ++ (us.map be32).flatten ++ _) = Res.ok (b.take (8 + R * 4 + R * (C * n)))
              have hRu : R.toUInt32 = ofBe32 b := by
                apply UInt32.toNat_inj.1; rw [toNat_toUInt32 hlt, hRdef]
              have hCu : C.toUInt32 = ofBe32 (b.drop 4) := by
                apply UInt32.toNat_inj.1; rw [toNat_toUInt32 hltC, hCdef]
              rw [hRu, hCu, be32_ofBe32 (by omega), be32_ofBe32 (by simp; omega), f5, l4]
              rw [List.take_add, List.take_add, show 8 = 4 + 4 by rfl, List.take_add]
              simp only [List.append_assoc]
              rw [Nat.mul_comm 4 R]
          · have hRC : ∀ k, readRows c n b (8 + 4 * R + C * n) C (R - 1) = .panic → k := by
              intro k hp
              exfalso
              by_cases hR0 : R = 0
              · subst hR0
                simp [readRows] at hp
              · have hC0 : C = 0 := by omega
                subst hC0
                exact readRows_total h (by omega) hp
            cases hrs : readRows c n b (8 + 4 * R + C * n) C (R - 1) with
            | panic => exact (hRC _ hrs)
            | err e => exact Or.inl ⟨e, rfl⟩
            | ok rows =>
              exact Or.inr ⟨_, rfl, rfl, rfl, fun h1 h2 => absurd ⟨h1, h2⟩ hpos⟩

end

end Abe

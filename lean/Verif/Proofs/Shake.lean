import Verif.Model.Shake
import Verif.Spec.Shake
import Mathlib.Data.List.GetD

/-!
# The lanes of the model against the bits of FIPS 202
-/

namespace Abe.Keccak

open Fips202 (Array3)

theorem getD_map_range {α : Type} (f : Nat → α) (d : α) {n i : Nat} (h : i < n) : ((List.range n).map f).getD i d = f i := by
  simp [List.getD_eq_getElem?_getD, h]

theorem getD_map_range_ge {α : Type} (f : Nat → α) (d : α) {n i : Nat} (h : n ≤ i) : ((List.range n).map f).getD i d = d := by
  simp [List.getD_eq_getElem?_getD, h]

/-- The lanes hold the bits of the array, and no bit above the 64th. -/
structure Rep (a : List Nat) (A : Array3) : Prop where
  length : a.length = 25
  high : ∀ i z, 64 ≤ z → (a.getD i 0).testBit z = false
  low : ∀ x < 5, ∀ y < 5, ∀ z < 64, (a.getD (x + 5 * y) 0).testBit z = A x y z

theorem testBit_rotl {n r z : Nat} (hn : ∀ z, 64 ≤ z → n.testBit z = false) (hr : r < 64) (hz : z < 64) : (rotl n r).testBit z = n.testBit ((z + 64 - r) % 64) := by
  simp only [rotl, Nat.testBit_or, Nat.testBit_mod_two_pow, Nat.testBit_shiftLeft, Nat.testBit_shiftRight, hz, decide_true, Bool.true_and]
  by_cases h : r ≤ z
  · rw [hn (64 - r + z) (by omega)]
    have : (z + 64 - r) % 64 = z - r := by omega
    simp [h, this]
  · have : (z + 64 - r) % 64 = 64 - r + z := by omega
    simp [h, this]

theorem testBit_rotl_high {n r z : Nat} (hn : ∀ z, 64 ≤ z → n.testBit z = false) (hz : 64 ≤ z) : (rotl n r).testBit z = false := by
  have : ¬z < 64 := by omega
  simp only [rotl, Nat.testBit_or, Nat.testBit_mod_two_pow, Nat.testBit_shiftLeft, Nat.testBit_shiftRight, this, decide_false, Bool.false_and, Bool.false_or]
  exact hn _ (by omega)

theorem rep_parities {a : List Nat} {A : Array3} (h : Rep a A) {x z : Nat} (hx : x < 5) :
    ((parities a).getD x 0).testBit z = (decide (z < 64) && (A x 0 z ^^ A x 1 z ^^ A x 2 z ^^ A x 3 z ^^ A x 4 z)) := by
  rw [parities, getD_map_range _ _ hx]
  simp only [Nat.testBit_xor]
  by_cases hz : z < 64
  · have h0 := h.low x hx 0 (by omega) z hz
    have h1 := h.low x hx 1 (by omega) z hz
    have h2 := h.low x hx 2 (by omega) z hz
    have h3 := h.low x hx 3 (by omega) z hz
    have h4 := h.low x hx 4 (by omega) z hz
    simp only [Nat.mul_zero, Nat.add_zero, Nat.reduceMul] at h0 h1 h2 h3 h4
    simp only [h0, h1, h2, h3, h4, hz, decide_true, Bool.true_and]
  · simp only [h.high _ z (Nat.le_of_not_lt hz), hz]; rfl

theorem rep_theta {a : List Nat} {A : Array3} (h : Rep a A) : Rep (theta a) (Fips202.theta A) := by
  have hp : ∀ x < 5, ∀ z, 64 ≤ z → ((parities a).getD x 0).testBit z = false := fun x hx z hz => by
    rw [rep_parities h hx]; simp [Nat.not_lt.2 hz]
  refine ⟨by simp [theta], fun i z hz => ?_, fun x hx y hy z hz => ?_⟩
  · by_cases hi : i < 25
    · rw [theta, getD_map_range _ _ hi, effects, getD_map_range _ _ (Nat.mod_lt _ (by omega)), Nat.testBit_xor, Nat.testBit_xor, h.high i z hz,
        hp _ (Nat.mod_lt _ (by omega)) z hz, testBit_rotl_high (hp _ (Nat.mod_lt _ (by omega))) hz]
      rfl
    · rw [theta, getD_map_range_ge _ _ (by omega)]; simp
  · have hi : (x + 5 * y) % 5 = x := by omega
    have hm : ∀ n, n % 5 < 5 := fun n => Nat.mod_lt _ (by omega)
    rw [theta, getD_map_range _ _ (by omega), effects, hi, getD_map_range _ _ hx, Nat.testBit_xor, Nat.testBit_xor, h.low x hx y hy z hz,
      testBit_rotl (hp _ (hm _)) (by omega) hz, rep_parities h (hm _), rep_parities h (hm _)]
    have : (z + 63) % 64 < 64 := Nat.mod_lt _ (by omega)
    simp [Fips202.theta, hz, this]

theorem rotations_offset : ∀ x < 5, ∀ y < 5, rotations.getD (x + 5 * y) 0 = Fips202.offset x y % 64 ∧ Fips202.offset x y ≤ 300 := by decide +kernel

theorem rotations_lt : ∀ i, rotations.getD i 0 < 64 := by
  intro i
  by_cases h : i < 25
  · revert i; decide +kernel
  · rw [List.getD_eq_default _ _ (by simp only [rotations, List.length_cons, List.length_nil]; omega)]; omega

theorem rep_rhoPi {a : List Nat} {A : Array3} (h : Rep a A) : Rep (rhoPi a) (Fips202.pi (Fips202.rho A)) := by
  refine ⟨by simp [rhoPi], fun i z hz => ?_, fun x hx y hy z hz => ?_⟩
  · by_cases hi : i < 25
    · rw [rhoPi, getD_map_range _ _ hi]
      exact testBit_rotl_high (h.high _) hz
    · rw [rhoPi, getD_map_range_ge _ _ (by omega)]; simp
  · have h1 : (x + 5 * y) % 5 = x := by omega
    have h2 : (x + 5 * y) / 5 = y := by omega
    have hm : (x + 3 * y) % 5 < 5 := Nat.mod_lt _ (by omega)
    obtain ⟨ho, hl⟩ := rotations_offset _ hm x hx
    rw [rhoPi, getD_map_range _ _ (by omega)]
    simp only [h1, h2]
    rw [testBit_rotl (h.high _) (rotations_lt _) hz, h.low _ hm x hx _ (Nat.mod_lt _ (by omega)), ho, Fips202.pi, Fips202.rho]
    congr 1
    omega

theorem rep_chi {a : List Nat} {A : Array3} (h : Rep a A) : Rep (chi a) (Fips202.chi A) := by
  refine ⟨by simp [chi], fun i z hz => ?_, fun x hx y hy z hz => ?_⟩
  · by_cases hi : i < 25
    · rw [chi, getD_map_range _ _ hi, Nat.testBit_xor, Nat.testBit_and, h.high _ z hz, h.high _ z hz, Bool.and_false]
      rfl
    · rw [chi, getD_map_range_ge _ _ (by omega)]; simp
  · have h1 : (x + 5 * y) % 5 = x := by omega
    have h2 : (x + 5 * y) / 5 = y := by omega
    have hm : ∀ n, n % 5 < 5 := fun n => Nat.mod_lt _ (by omega)
    rw [chi, getD_map_range _ _ (by omega), h1, h2, Nat.testBit_xor, Nat.testBit_and, Nat.testBit_xor, h.low x hx y hy z hz, h.low _ (hm _) y hy z hz,
      h.low _ (hm _) y hy z hz, Nat.testBit_two_pow_sub_one, Fips202.chi]
    simp [hz]

theorem roundConstants_rc : ∀ i < 24, ∀ z < 64, (roundConstants.getD i 0).testBit z = Fips202.RC i z := by decide +kernel

theorem roundConstants_lt : ∀ i < 24, roundConstants.getD i 0 < 2 ^ 64 := by decide +kernel

theorem rep_iota {a : List Nat} {A : Array3} (h : Rep a A) {i : Nat} (hi : i < 24) : Rep (iota (roundConstants.getD i 0) a) (Fips202.iota i A) := by
  have hl := h.length
  have h0 : ∀ v, (a.set 0 v).getD 0 0 = v := fun v => by simp [List.getD_eq_getElem?_getD, hl]
  have hk : ∀ v k, k ≠ 0 → (a.set 0 v).getD k 0 = a.getD k 0 := fun v k hk => by
    rw [List.getD_eq_getElem?_getD, List.getElem?_set_ne (Ne.symm hk), List.getD_eq_getElem?_getD]
  refine ⟨by simp [iota, hl], fun j z hz => ?_, fun x hx y hy z hz => ?_⟩
  · by_cases hj : j = 0
    · subst hj
      rw [iota, h0, Nat.testBit_xor, h.high _ z hz, Nat.testBit_lt_two_pow (Nat.lt_of_lt_of_le (roundConstants_lt i hi) (Nat.pow_le_pow_right (by omega) hz))]
      rfl
    · rw [iota, hk _ _ hj, h.high _ z hz]
  · by_cases hj : x = 0 ∧ y = 0
    · obtain ⟨rfl, rfl⟩ := hj
      have := h.low 0 hx 0 hy z hz
      rw [Nat.mul_zero, Nat.add_zero] at this ⊢
      rw [iota, h0, Nat.testBit_xor, this, roundConstants_rc i hi z hz]
      simp [Fips202.iota]
    · rw [iota, hk _ _ (by omega), h.low x hx y hy z hz]
      simp [Fips202.iota, hj]

theorem roundConstants_range : roundConstants = (List.range 24).map fun i => roundConstants.getD i 0 := by decide +kernel

theorem rep_rounds {a : List Nat} {A : Array3} (h : Rep a A) (l : List Nat) (hl : ∀ i ∈ l, i < 24) :
    Rep ((l.map fun i => roundConstants.getD i 0).foldl (fun a r => iota r (chi (rhoPi (theta a)))) a)
      (l.foldl (fun A i => Fips202.iota i (Fips202.chi (Fips202.pi (Fips202.rho (Fips202.theta A))))) A) := by
  induction l generalizing a A with
  | nil => exact h
  | cons i l ih => exact ih (rep_iota (rep_chi (rep_rhoPi (rep_theta h))) (hl i (by simp))) fun j hj => hl j (by simp [hj])

/-- The lanes hold the string of bits. -/
def Holds (a : List Nat) (S : Nat → Bool) : Prop := Rep a (Fips202.array S)

theorem holds_bit {a : List Nat} {S : Nat → Bool} (h : Holds a S) {k : Nat} (hk : k < 1600) : S k = (a.getD (k / 64) 0).testBit (k % 64) := by
  have := h.low (k / 64 % 5) (by omega) (k / 320) (by omega) (k % 64) (by omega)
  have e : k / 64 % 5 + 5 * (k / 320) = k / 64 := by omega
  rw [e] at this
  rw [this, Fips202.array]
  congr 1
  omega

theorem holds_congr {a : List Nat} {S S' : Nat → Bool} (h : Holds a S) (he : ∀ k < 1600, S k = S' k) : Holds a S' :=
  ⟨h.length, h.high, fun x hx y hy z hz => by rw [h.low x hx y hy z hz]; exact he _ (by omega)⟩

theorem holds_permute {a : List Nat} {S : Nat → Bool} (h : Holds a S) : Holds (permute a) (Fips202.permute S) := by
  have := rep_rounds h (List.range 24) fun i hi => List.mem_range.1 hi
  rw [← roundConstants_range] at this
  refine ⟨this.length, this.high, fun x hx y hy z hz => ?_⟩
  have e1 : (64 * (5 * y + x) + z) / 64 % 5 = x := by omega
  have e2 : (64 * (5 * y + x) + z) / 320 = y := by omega
  have e3 : (64 * (5 * y + x) + z) % 64 = z := by omega
  rw [permute, this.low x hx y hy z hz, Fips202.array, Fips202.permute, Fips202.string, e1, e2, e3]

/-! ## Bytes and bits -/

theorem bits_length (b : Bytes) : (Fips202.bits b).length = 8 * b.length := by
  induction b with
  | nil => rfl
  | cons x b ih =>
    rw [Fips202.bits] at ih
    simp [Fips202.bits, ih]; omega

theorem bits_cons (x : UInt8) (b : Bytes) : Fips202.bits (x :: b) = (List.range 8).map (fun i => x.toNat.testBit i) ++ Fips202.bits b := rfl

theorem bits_append (b c : Bytes) : Fips202.bits (b ++ c) = Fips202.bits b ++ Fips202.bits c := by simp [Fips202.bits]

theorem bits_getD (b : Bytes) (k : Nat) : (Fips202.bits b).getD k false = (b.getD (k / 8) 0).toNat.testBit (k % 8) := by
  induction b generalizing k with
  | nil => simp [Fips202.bits]
  | cons x b ih =>
    rw [bits_cons]
    by_cases hk : k < 8
    · rw [List.getD_append _ _ _ _ (by simpa using hk), getD_map_range _ _ hk]
      have h1 : k / 8 = 0 := by omega
      have h2 : k % 8 = k := by omega
      simp [h1, h2]
    · rw [List.getD_append_right _ _ _ _ (by simpa using hk)]
      have h1 : k / 8 = (k - 8) / 8 + 1 := by omega
      have h2 : k % 8 = (k - 8) % 8 := by omega
      simp only [List.length_map, List.length_range]
      rw [ih, h1, h2]; rfl

theorem lane_testBit (b : Bytes) (z : Nat) : (lane b).testBit z = (Fips202.bits b).getD z false := by
  induction b generalizing z with
  | nil => simp [lane, Fips202.bits]
  | cons x b ih =>
    have hx : x.toNat < 2 ^ 8 := x.toNat_lt
    have : lane (x :: b) = 2 ^ 8 * lane b + x.toNat := by rw [lane]; omega
    rw [this, Nat.testBit_two_pow_mul_add _ hx, bits_cons]
    split <;> rename_i hz
    · rw [List.getD_append _ _ _ _ (by simpa using hz), getD_map_range _ _ hz]
    · rw [List.getD_append_right _ _ _ _ (by simpa using hz), ih]; simp

theorem getD_take {α : Type} (l : List α) (d : α) (n k : Nat) : (l.take n).getD k d = if k < n then l.getD k d else d := by
  simp only [List.getD_eq_getElem?_getD, List.getElem?_take]; split <;> rfl

theorem getD_drop {α : Type} (l : List α) (d : α) (n k : Nat) : (l.drop n).getD k d = l.getD (n + k) d := by
  simp [List.getD_eq_getElem?_getD, List.getElem?_drop]

theorem holds_addBlock {a : List Nat} {S : Nat → Bool} (h : Holds a S) (b : Bytes) :
    Holds (addBlock a (b.take rate)) fun k => S k ^^ (k < 1088 && (Fips202.bits b).getD k false) := by
  have hl : ∀ i z, (lane (((b.take rate).drop (8 * i)).take 8)).testBit z = (decide (z < 64) && decide (64 * i + z < 1088) && (Fips202.bits b).getD (64 * i + z) false) := by
    intro i z
    rw [lane_testBit, bits_getD, getD_take, getD_drop, getD_take, bits_getD, rate]
    have e1 : (64 * i + z) / 8 = 8 * i + z / 8 := by omega
    have e2 : (64 * i + z) % 8 = z % 8 := by omega
    rw [e1, e2]
    by_cases h1 : z < 64
    · by_cases h2 : 64 * i + z < 1088
      · simp [h1, h2, show z / 8 < 8 by omega, show 8 * i + z / 8 < 136 by omega]
      · simp [h1, h2, show ¬8 * i + z / 8 < 136 by omega]
    · simp [h1, show ¬z / 8 < 8 by omega]
  refine ⟨by simp [addBlock], fun i z hz => ?_, fun x hx y hy z hz => ?_⟩
  · by_cases hi : i < 25
    · rw [addBlock, getD_map_range _ _ hi, Nat.testBit_xor, h.high _ _ hz, hl]
      simp [Nat.not_lt.2 hz]
    · rw [addBlock, getD_map_range_ge _ _ (by omega)]; simp
  · rw [addBlock, getD_map_range _ _ (by omega), Nat.testBit_xor, h.low x hx y hy z hz, hl, Fips202.array, Fips202.array, Nat.add_comm x]
    simp only [hz, decide_true, Bool.true_and]

/-! ## The sponge -/

/-- One step of the absorption of the specification. -/
def specStep (P : List Bool) (S : Nat → Bool) (i : Nat) : Nat → Bool := Fips202.permute fun k => S k ^^ (k < 1088 && P.getD (1088 * i + k) false)

theorem holds_absorb (b : Bytes) (n s : Nat) {a : List Nat} {S : Nat → Bool} (h : Holds a S) :
    Holds (absorb n a (b.drop (136 * s))) ((List.range' s n).foldl (specStep (Fips202.bits b)) S) := by
  induction n generalizing s a S with
  | zero => exact h
  | succ n ih =>
    rw [absorb, List.range'_succ, List.foldl_cons, List.drop_drop]
    have e : 136 * s + rate = 136 * (s + 1) := by rw [rate]; omega
    rw [e]
    refine ih (s + 1) (holds_permute (holds_congr (holds_addBlock h _) fun k _ => ?_))
    rw [bits_getD, getD_drop, bits_getD]
    have e1 : (1088 * s + k) / 8 = 136 * s + k / 8 := by omega
    have e2 : (1088 * s + k) % 8 = k % 8 := by omega
    rw [e1, e2]

theorem holds_zero : Holds (List.replicate 25 0) fun _ => false := by
  have : ∀ i, (List.replicate 25 0).getD i 0 = 0 := fun i => by
    rw [List.getD_eq_getElem?_getD, List.getElem?_replicate]; split <;> rfl
  exact ⟨rfl, fun i z _ => by rw [this]; simp, fun x _ y _ z _ => by rw [this]; simp [Fips202.array]⟩

theorem holds_iterate {a : List Nat} {S : Nat → Bool} (h : Holds a S) (n : Nat) : Holds (permute^[n] a) (Fips202.permute^[n] S) := by
  induction n generalizing a S with
  | zero => exact h
  | succ n ih => exact ih (holds_permute h)

theorem laneBytes_length (n : Nat) : (laneBytes n).length = 8 := by simp [laneBytes]

theorem flatMap_laneBytes_length (a : List Nat) : (a.flatMap laneBytes).length = 8 * a.length := by
  induction a with
  | nil => rfl
  | cons x a ih => rw [List.flatMap_cons, List.length_append, ih, laneBytes_length, List.length_cons]; omega

theorem laneBytes_bit (n : Nat) {z : Nat} (hz : z < 64) : ((laneBytes n).getD (z / 8) 0).toNat.testBit (z % 8) = n.testBit z := by
  rw [laneBytes, getD_map_range _ _ (by omega)]
  have : ((n >>> (8 * (z / 8))).toUInt8).toNat = (n >>> (8 * (z / 8))) % 2 ^ 8 := by simp
  rw [this, Nat.testBit_mod_two_pow, Nat.testBit_shiftRight]
  have : 8 * (z / 8) + z % 8 = z := by omega
  simp [this, Nat.mod_lt]

theorem flatMap_laneBytes_bit (a : List Nat) {k : Nat} (hk : k < 64 * a.length) :
    ((a.flatMap laneBytes).getD (k / 8) 0).toNat.testBit (k % 8) = (a.getD (k / 64) 0).testBit (k % 64) := by
  induction a generalizing k with
  | nil => simp at hk
  | cons x a ih =>
    rw [List.flatMap_cons]
    by_cases h : k < 64
    · rw [List.getD_append _ _ _ _ (by rw [laneBytes_length]; omega), laneBytes_bit x h]
      have e1 : k / 64 = 0 := by omega
      have e2 : k % 64 = k := by omega
      simp [e1, e2]
    · rw [List.getD_append_right _ _ _ _ (by rw [laneBytes_length]; omega), laneBytes_length]
      have e1 : k / 8 - 8 = (k - 64) / 8 := by omega
      have e2 : k % 8 = (k - 64) % 8 := by omega
      have e3 : k / 64 = (k - 64) / 64 + 1 := by omega
      have e4 : k % 64 = (k - 64) % 64 := by omega
      rw [e1, e2, ih (by rw [List.length_cons] at hk; omega), e3, e4]
      rfl

theorem squeeze_block_length {a : List Nat} (h : a.length = 25) : ((a.flatMap laneBytes).take rate).length = 136 := by
  rw [List.length_take, flatMap_laneBytes_length, h]; rfl

theorem permute_length {a : List Nat} (h : a.length = 25) : (permute a).length = 25 := by
  have : ∀ (l : List Nat) (a : List Nat), a.length = 25 → (l.foldl (fun a r => iota r (chi (rhoPi (theta a)))) a).length = 25 := by
    intro l
    induction l with
    | nil => exact fun a h => h
    | cons r l ih => exact fun a _ => ih _ (by simp [iota, chi])
  exact this _ _ h

theorem squeeze_length (n : Nat) {a : List Nat} (h : a.length = 25) : (squeeze n a).length = 136 * n := by
  induction n generalizing a with
  | zero => rfl
  | succ n ih => rw [squeeze, List.length_append, squeeze_block_length h, ih (permute_length h)]; omega

theorem squeeze_bit (n : Nat) {a : List Nat} {S : Nat → Bool} (h : Holds a S) {k : Nat} (hk : k < 1088 * n) :
    ((squeeze n a).getD (k / 8) 0).toNat.testBit (k % 8) = (Fips202.permute^[k / 1088] S) (k % 1088) := by
  induction n generalizing a S k with
  | zero => simp at hk
  | succ n ih =>
    rw [squeeze]
    by_cases hb : k < 1088
    · have e1 : k / 1088 = 0 := by omega
      have e2 : k % 1088 = k := by omega
      rw [List.getD_append _ _ _ _ (by rw [squeeze_block_length h.length]; omega), getD_take, if_pos (by rw [rate]; omega),
        flatMap_laneBytes_bit a (by rw [h.length]; omega), e1, e2, Function.iterate_zero_apply, holds_bit h (by omega)]
    · have e1 : k / 1088 = (k - 1088) / 1088 + 1 := by omega
      have e2 : k % 1088 = (k - 1088) % 1088 := by omega
      have e3 : k / 8 - 136 = (k - 1088) / 8 := by omega
      have e4 : k % 8 = (k - 1088) % 8 := by omega
      rw [List.getD_append_right _ _ _ _ (by rw [squeeze_block_length h.length]; omega), squeeze_block_length h.length, e3, e4, ih (holds_permute h) (by omega), e1, e2,
        Function.iterate_succ_apply]

theorem bits_replicate (n : Nat) : Fips202.bits (List.replicate n 0) = List.replicate (8 * n) false := by
  induction n with
  | zero => rfl
  | succ n ih =>
    rw [List.replicate_succ, bits_cons, ih]
    have : (List.range 8).map (fun i => (0 : UInt8).toNat.testBit i) = List.replicate 8 false := by decide
    rw [this, ← List.replicate_add]
    congr 1; omega

theorem bits_pad (b : Bytes) : Fips202.bits (pad b) = (Fips202.bits b ++ [true, true, true, true]) ++ Fips202.pad 1088 (Fips202.bits b ++ [true, true, true, true]).length := by
  have hl : (Fips202.bits b ++ [true, true, true, true]).length = 8 * b.length + 4 := by simp [bits_length]
  rw [hl, Fips202.pad, pad, rate]
  split <;> rename_i h
  · have : (1088 - (8 * b.length + 4 + 2) % 1088) % 1088 = 2 := by omega
    rw [this, bits_append, List.append_assoc]
    congr 1
  · have : (1088 - (8 * b.length + 4 + 2) % 1088) % 1088 = 3 + (8 * (136 - 2 - b.length % 136) + 7) := by omega
    rw [this, bits_append, bits_cons, bits_append, bits_replicate, List.append_assoc, List.replicate_add, List.replicate_add]
    congr 1
    have e1 : (List.range 8).map (fun i => (0x1f : UInt8).toNat.testBit i) = [true, true, true, true] ++ true :: List.replicate 3 false := by decide
    have e2 : Fips202.bits [0x80] = List.replicate 7 false ++ [true] := by decide
    rw [e1, e2]
    simp only [List.append_assoc, List.cons_append]

theorem pad_length (b : Bytes) : (pad b).length = 136 * (b.length / 136 + 1) := by
  rw [pad, rate]
  split <;> simp <;> omega

theorem absorbed_length (n : Nat) {a : List Nat} (b : Bytes) (h : a.length = 25) : (absorb n a b).length = 25 := by
  induction n generalizing a b with
  | zero => exact h
  | succ n ih => exact ih _ (permute_length (by simp [addBlock]))

theorem shake256_length (b : Bytes) (n : Nat) : (shake256 b n).length = n := by
  rw [shake256, List.length_take, squeeze_length _ (absorbed_length _ _ rfl), rate]
  omega

theorem shake256_bits (b : Bytes) (n : Nat) : Fips202.bits (shake256 b n) = Fips202.shake256 (Fips202.bits b) (8 * n) := by
  apply List.ext_getElem
  · simp [bits_length, shake256_length, Fips202.shake256, Fips202.sponge]
  intro k h1 h2
  have hk : k < 8 * n := by rwa [bits_length, shake256_length] at h1
  have ha := holds_absorb (pad b) ((pad b).length / rate) 0 holds_zero
  have hS : (List.range' 0 ((pad b).length / rate)).foldl (specStep (Fips202.bits (pad b))) (fun _ => false) = Fips202.absorb 1088 (Fips202.bits (pad b)) := by
    rw [Fips202.absorb, bits_length, ← List.range_eq_range', rate]
    have : 8 * (pad b).length / 1088 = (pad b).length / 136 := by omega
    rw [this]; rfl
  rw [hS, bits_pad] at ha
  rw [← List.getD_eq_getElem _ false h1, ← List.getD_eq_getElem _ false h2, bits_getD, shake256, getD_take, if_pos (by omega)]
  rw [Fips202.shake256, Fips202.sponge, getD_map_range _ _ hk]
  exact squeeze_bit _ ha (by rw [rate]; omega)

theorem squeeze_append (m n : Nat) (a : List Nat) : squeeze (m + n) a = squeeze m a ++ squeeze n (permute^[m] a) := by
  induction m generalizing a with
  | zero => simp [squeeze]
  | succ m ih => rw [Nat.succ_add, squeeze, ih, squeeze, List.append_assoc, Function.iterate_succ_apply]

theorem shake256_take (b : Bytes) {m n : Nat} (h : m ≤ n) : (shake256 b n).take m = shake256 b m := by
  rw [shake256, shake256, List.take_take, Nat.min_eq_left h]
  have : n / rate + 1 = (m / rate + 1) + (n / rate - m / rate) := by have := Nat.div_le_div_right (c := rate) h; omega
  rw [this, squeeze_append, List.take_append_of_le_length]
  rw [squeeze_length _ (absorbed_length _ _ rfl), rate]; omega

theorem pad_marker (c : Bytes) : (pad c).getD c.length 0 = 0x1f ∨ (pad c).getD c.length 0 = 0x9f := by
  rw [pad]; split
  · right; rw [List.getD_append_right _ _ _ _ (Nat.le_refl _), Nat.sub_self]; rfl
  · left; rw [List.getD_append_right _ _ _ _ (Nat.le_refl _), Nat.sub_self]; rfl

theorem pad_tail (b : Bytes) {k : Nat} (h : b.length < k) : (pad b).getD k 0 = 0 ∨ (pad b).getD k 0 = 0x80 := by
  obtain ⟨j, rfl⟩ : ∃ j, k = b.length + (j + 1) := ⟨k - b.length - 1, by omega⟩
  rw [pad]; split
  · left; rw [List.getD_append_right _ _ _ _ (by omega), Nat.add_sub_cancel_left]; rfl
  · rw [List.getD_append_right _ _ _ _ (by omega), Nat.add_sub_cancel_left, List.getD_cons_succ]
    generalize rate - 2 - b.length % rate = n
    by_cases hj : j < n
    · left; rw [List.getD_append _ _ _ _ (by simpa using hj), List.getD_eq_getElem?_getD, List.getElem?_replicate, if_pos hj]; rfl
    · rw [List.getD_append_right _ _ _ _ (by simpa using hj)]
      match j - (List.replicate n (0 : UInt8)).length with
      | 0 => right; rfl
      | _ + 1 => left; rfl

theorem pad_not_lt {b c : Bytes} (h : pad b = pad c) : ¬b.length < c.length := by
  intro hl
  have h1 := pad_marker c
  rw [← h] at h1
  rcases pad_tail b hl with h2 | h2 <;> rw [h2] at h1 <;> revert h1 <;> decide

theorem pad_inj {b c : Bytes} (h : pad b = pad c) : b = c := by
  have hl : b.length = c.length := Nat.le_antisymm (Nat.not_lt.1 (pad_not_lt h.symm)) (Nat.not_lt.1 (pad_not_lt h))
  have hp : ∀ b : Bytes, (pad b).take b.length = b := fun b => by rw [pad]; split <;> simp
  rw [← hp b, ← hp c, h, hl]

end Abe.Keccak

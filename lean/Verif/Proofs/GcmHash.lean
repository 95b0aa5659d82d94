import Verif.Proofs.AesGcm
import Verif.Proofs.GcmField
import Verif.Spec.GcmGame
import Mathlib.Algebra.Polynomial.Roots

/-!
# GHASH: lemmas
-/

namespace Abe.Gcm

open Polynomial

/-! ## Bytes and numbers -/

theorem number_snoc (b : Bytes) (x : UInt8) : number (b ++ [x]) = 256 * number b + x.toNat := by
  simp [number]

theorem number_lt (b : Bytes) : number b < 256 ^ b.length := by
  induction b using List.reverseRecOn with
  | nil => simp [number]
  | append_singleton b x ih =>
    rw [number_snoc, List.length_append, List.length_singleton, pow_succ]
    have := x.toNat_lt
    omega

theorem number_inj {a : Bytes} : ∀ {b : Bytes}, a.length = b.length → number a = number b → a = b := by
  induction a using List.reverseRecOn with
  | nil =>
    intro b h _
    exact (List.length_eq_zero_iff.1 h.symm).symm
  | append_singleton a x ih =>
    intro b h hn
    rcases List.eq_nil_or_concat b with rfl | ⟨b, y, rfl⟩
    · simp at h
    · simp only [List.concat_eq_append] at *
      rw [number_snoc, number_snoc] at hn
      have := x.toNat_lt
      have := y.toNat_lt
      simp only [List.length_append, List.length_singleton, Nat.add_right_cancel_iff] at h
      rw [ih h (by omega), UInt8.toNat_inj.1 (show x.toNat = y.toNat by omega)]

theorem number_range : ∀ (k n : Nat), number ((List.range k).map fun i => (n >>> (8 * (k - 1 - i))).toUInt8) = n % 256 ^ k
  | 0, n => by simp [number, Nat.mod_one]
  | k + 1, n => by
    have ih := number_range k (n >>> 8)
    rw [List.range_succ, List.map_append, List.map_singleton, number_snoc]
    have e : ((List.range k).map fun i => (n >>> (8 * (k + 1 - 1 - i))).toUInt8) = (List.range k).map fun i => (n >>> 8 >>> (8 * (k - 1 - i))).toUInt8 := by
      refine List.map_congr_left fun i hi => ?_
      rw [List.mem_range] at hi
      rw [← Nat.shiftRight_add, show 8 * (k + 1 - 1 - i) = 8 + 8 * (k - 1 - i) by omega]
    rw [e, ih]
    simp only [Nat.add_sub_cancel, Nat.sub_self, Nat.mul_zero, Nat.shiftRight_zero, Nat.toUInt8, UInt8.toNat_ofNat']
    rw [Nat.shiftRight_eq_div_pow, pow_succ' 256 k, Nat.mod_mul]
    exact Nat.add_comm _ _

theorem number_bytes16 {n : Nat} (h : n < 2 ^ 128) : number (bytes16 n) = n := by
  have := number_range 16 n
  rw [Nat.mod_eq_of_lt (by simpa using h)] at this
  exact this

theorem bytes16_length (n : Nat) : (bytes16 n).length = 16 := by simp [bytes16]

theorem number_lt16 {b : Bytes} (h : b.length = 16) : number b < 2 ^ 128 := by
  have := number_lt b
  rw [h] at this
  simpa using this

theorem bytes16_number {b : Bytes} (h : b.length = 16) : bytes16 (number b) = b :=
  number_inj (by rw [bytes16_length, h]) (number_bytes16 (number_lt16 h))

theorem bytes16_inj {a b : Nat} (ha : a < 2 ^ 128) (hb : b < 2 ^ 128) (h : bytes16 a = bytes16 b) : a = b := by
  rw [← number_bytes16 ha, h, number_bytes16 hb]

theorem bytes16_xor (a b : Nat) : List.zipWith (· ^^^ ·) (bytes16 a) (bytes16 b) = bytes16 (a ^^^ b) := by
  unfold bytes16
  rw [List.zipWith_map, List.zipWith_self]
  refine List.map_congr_left fun i _ => ?_
  rw [Nat.shiftRight_xor_distrib]
  apply UInt8.toNat_inj.1
  simp only [Nat.toUInt8, UInt8.toNat_xor, UInt8.toNat_ofNat']
  rw [Nat.xor_mod_two_pow (n := 8)]

/-! ## The blocks which are hashed -/

theorem blocks_length (b : Bytes) : (blocks b).length = units b := by simp [blocks, units]

theorem padded_length (b : Bytes) (i : Nat) : (((b.drop (16 * i)).take 16 ++ List.replicate 16 0).take 16).length = 16 := by
  simp

theorem blocks_lt {b : Bytes} {n : Nat} (h : n ∈ blocks b) : n < 2 ^ 128 := by
  unfold blocks at h
  obtain ⟨i, _, rfl⟩ := List.mem_map.1 h
  exact number_lt16 (padded_length b i)

theorem padded_getElem? (b : Bytes) {i r : Nat} (hr : r < 16) (h : 16 * i + r < b.length) :
    (((b.drop (16 * i)).take 16 ++ List.replicate 16 0).take 16)[r]? = b[16 * i + r]? := by
  rw [List.getElem?_take_of_lt hr, List.getElem?_append_left (by simp; omega), List.getElem?_take_of_lt hr, List.getElem?_drop]

theorem blocks_inj {a b : Bytes} (hl : a.length = b.length) (h : blocks a = blocks b) : a = b := by
  refine List.ext_getElem? fun j => ?_
  rcases Nat.lt_or_ge j a.length with hj | hj
  · unfold blocks at h
    rw [hl] at h
    have hi : j / 16 ∈ List.range ((b.length + 15) / 16) := List.mem_range.2 (by omega)
    have h' := List.map_inj_left.1 h (j / 16) hi
    have h'' := number_inj (by rw [padded_length, padded_length]) h'
    have e : j = 16 * (j / 16) + j % 16 := by omega
    rw [e, ← padded_getElem? a (Nat.mod_lt _ (by omega)) (by omega), ← padded_getElem? b (Nat.mod_lt _ (by omega)) (by omega), h'']
  · rw [List.getElem?_eq_none hj, List.getElem?_eq_none (by omega)]

theorem hashed_length (ad body : Bytes) : (hashed ad body).length = units ad + units body + 1 := by
  simp [hashed, blocks_length, Nat.add_assoc]

/-- The block of the sizes. -/
theorem sizes_inj {a b a' b' : Nat} (hb : b ≤ limit) (hb' : b' ≤ limit) (h : ((8 * a) <<< 64) + 8 * b = ((8 * a') <<< 64) + 8 * b') : a = a' ∧ b = b' := by
  rw [Nat.shiftLeft_eq, Nat.shiftLeft_eq] at h
  unfold limit at *
  omega

theorem hashed_lt {ad body : Bytes} (ha : ad.length ≤ limit) (hb : body.length ≤ limit) {n : Nat} (h : n ∈ hashed ad body) : n < 2 ^ 128 := by
  unfold hashed at h
  rw [List.mem_append, List.mem_append, List.mem_singleton] at h
  rcases h with (h | h) | rfl
  · exact blocks_lt h
  · exact blocks_lt h
  · rw [Nat.shiftLeft_eq]
    unfold limit at *
    omega

theorem hashed_inj {ad body ad' body' : Bytes} (hb : body.length ≤ limit) (hb' : body'.length ≤ limit) (hlast : (hashed ad body).getLast? = (hashed ad' body').getLast?)
    (h : (hashed ad body).length = (hashed ad' body').length → hashed ad body = hashed ad' body') : ad = ad' ∧ body = body' := by
  have hl : ad.length = ad'.length ∧ body.length = body'.length := by
    simp only [hashed, List.getLast?_append, List.getLast?_singleton, Option.some_or, Option.some.injEq] at hlast
    exact sizes_inj hb hb' hlast
  have he := h (by rw [hashed_length, hashed_length, units, units, units, units, hl.1, hl.2])
  unfold hashed at he
  have h1 := List.append_inj he (by simp [blocks_length, units, hl.1, hl.2])
  have h2 := List.append_inj h1.1 (by simp [blocks_length, units, hl.1])
  exact ⟨blocks_inj hl.1 h2.1, blocks_inj hl.2 h2.2⟩

/-! ## GHASH is a polynomial -/

theorem ghash_snoc (h : Nat) (bs : List Nat) (b : Nat) : ghash h (bs ++ [b]) = mul (ghash h bs ^^^ b) h := by
  simp [ghash]

/-- The polynomial whose value at the hash key is the hash; the blocks from the last one. -/
noncomputable def hashPoly : List Nat → Field128[X]
  | [] => 0
  | b :: bs => (hashPoly bs + C (elem b)) * X

theorem ghash_lt {h : Nat} (hh : h < 2 ^ 128) (bs : List Nat) : ghash h bs < 2 ^ 128 := by
  rcases List.eq_nil_or_concat bs with rfl | ⟨bs, b, rfl⟩
  · simp [ghash]
  · rw [List.concat_eq_append, ghash_snoc]
    exact mul_lt _ hh

theorem ghash_elem {h : Nat} (hh : h < 2 ^ 128) (bs : List Nat) : elem (ghash h bs) = (hashPoly bs.reverse).eval (elem h) := by
  induction bs using List.reverseRecOn with
  | nil => simp [ghash, hashPoly, elem_zero]
  | append_singleton bs b ih =>
    rw [ghash_snoc, elem_mul _ hh, elem_xor, ih, List.reverse_append]
    simp [hashPoly]

theorem hashPoly_coeff : ∀ (bs : List Nat) (j : Nat), (hashPoly bs).coeff (j + 1) = (bs[j]?.map elem).getD 0
  | [], j => by simp [hashPoly]
  | b :: bs, 0 => by
    rw [hashPoly, coeff_mul_X, coeff_add, coeff_C_zero]
    have : (hashPoly bs).coeff 0 = 0 := by cases bs <;> simp [hashPoly]
    simp [this]
  | b :: bs, j + 1 => by
    rw [hashPoly, coeff_mul_X, coeff_add, hashPoly_coeff bs j, coeff_C_succ]
    simp

theorem hashPoly_natDegree : ∀ bs : List Nat, (hashPoly bs).natDegree ≤ bs.length
  | [] => by simp [hashPoly]
  | b :: bs => by
    rw [hashPoly]
    refine natDegree_mul_le.trans ?_
    rw [natDegree_X, List.length_cons]
    refine Nat.add_le_add_right ((natDegree_add_le _ _).trans (max_le (hashPoly_natDegree bs) ?_)) 1
    rw [natDegree_C]
    omega

theorem hashPoly_ne {ad body ad' body' : Bytes} (ha : ad.length ≤ limit) (hb : body.length ≤ limit) (ha' : ad'.length ≤ limit) (hb' : body'.length ≤ limit)
    (hne : (ad, body) ≠ (ad', body')) : ∃ j, (hashPoly (hashed ad body).reverse).coeff (j + 1) ≠ (hashPoly (hashed ad' body').reverse).coeff (j + 1) := by
  by_contra hcon
  push Not at hcon
  simp only [hashPoly_coeff] at hcon
  have key : ∀ j : Nat, j < (hashed ad body).length → j < (hashed ad' body').length → (hashed ad body).reverse[j]? = (hashed ad' body').reverse[j]? := by
    intro j h h'
    have hj := hcon j
    have h1 : j < (hashed ad body).reverse.length := by rwa [List.length_reverse]
    have h2 : j < (hashed ad' body').reverse.length := by rwa [List.length_reverse]
    rw [List.getElem?_eq_getElem h1, List.getElem?_eq_getElem h2] at hj ⊢
    simp only [Option.map_some, Option.getD_some] at hj
    rw [elem_injective (hashed_lt ha hb (List.mem_reverse.1 (List.getElem_mem h1))) (hashed_lt ha' hb' (List.mem_reverse.1 (List.getElem_mem h2))) hj]
  apply hne
  obtain ⟨h1, h2⟩ := hashed_inj (ad := ad) (body := body) (ad' := ad') (body' := body') hb hb' (by
    rw [← List.head?_reverse, ← List.head?_reverse, List.head?_eq_getElem?, List.head?_eq_getElem?]
    exact key 0 (by rw [hashed_length]; omega) (by rw [hashed_length]; omega)) (by
    intro hl
    apply List.reverse_injective
    refine List.ext_getElem? fun j => ?_
    rcases Nat.lt_or_ge j (hashed ad body).length with h | h
    · exact key j h (hl ▸ h)
    · rw [List.getElem?_eq_none (by rwa [List.length_reverse]), List.getElem?_eq_none (by rw [List.length_reverse]; omega)])
  rw [h1, h2]

/-- Few hash keys give two different messages hashes with a given difference. -/
theorem ghash_collisions {ad body ad' body' : Bytes} (ha : ad.length ≤ limit) (hb : body.length ≤ limit) (ha' : ad'.length ≤ limit) (hb' : body'.length ≤ limit)
    (hne : (ad, body) ≠ (ad', body')) (d : Nat) {L : Nat} (hL : units ad + units body ≤ L) (hL' : units ad' + units body' ≤ L) :
    (Finset.univ.filter fun h : Blk => ghash h.val (hashed ad body) ^^^ ghash h.val (hashed ad' body') = d).card ≤ L + 1 := by
  classical
  obtain ⟨j, hj⟩ := hashPoly_ne ha hb ha' hb' hne
  set p := hashPoly (hashed ad body).reverse + hashPoly (hashed ad' body').reverse + C (elem d) with hp
  have hp0 : p ≠ 0 := by
    intro h0
    have := congrArg (fun q => q.coeff (j + 1)) h0
    simp only [hp, coeff_add, coeff_C_succ, add_zero, coeff_zero] at this
    exact hj (eq_of_add this)
  have hdeg : p.natDegree ≤ L + 1 := by
    refine (natDegree_add_le _ _).trans (max_le ((natDegree_add_le _ _).trans (max_le ?_ ?_)) ?_)
    · refine (hashPoly_natDegree _).trans ?_
      rw [List.length_reverse, hashed_length]
      omega
    · refine (hashPoly_natDegree _).trans ?_
      rw [List.length_reverse, hashed_length]
      omega
    · rw [natDegree_C]
      omega
  refine le_trans ?_ ((Multiset.toFinset_card_le p.roots).trans ((card_roots' p).trans hdeg))
  refine Finset.card_le_card_of_injOn (fun h => elem h.val) ?_ ?_
  · intro h hh
    rw [Finset.mem_coe, Finset.mem_filter] at hh
    rw [Finset.mem_coe, Multiset.mem_toFinset, mem_roots hp0, IsRoot.def, hp, eval_add, eval_add, eval_C, ← ghash_elem h.isLt, ← ghash_elem h.isLt, ← elem_xor, hh.2,
      add_self]
  · intro h _ h' _ he
    exact Fin.ext (elem_injective h.isLt h'.isLt he)

end Abe.Gcm

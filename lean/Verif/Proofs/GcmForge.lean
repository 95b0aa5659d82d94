import Verif.Proofs.GcmHash
import Verif.Proofs.Codec

/-!
# Forgeries: lemmas
-/

namespace Abe.Gcm

/-! ## The inputs of the block function -/

/-- The block denoted by bytes. -/
def pt (b : Bytes) : Blk := Fin.ofNat (2 ^ 128) (number b)

theorem onBytes_pt (E : Blk → Blk) (b : Bytes) : onBytes E b = bytes16 (E (pt b)).val := rfl

theorem onBytes_length (E : Blk → Blk) (b : Bytes) : (onBytes E b).length = 16 := bytes16_length _

theorem pt_val {b : Bytes} (h : b.length = 16) : (pt b).val = number b := Nat.mod_eq_of_lt (number_lt16 h)

theorem pt_inj {a b : Bytes} (ha : a.length = 16) (hb : b.length = 16) (h : pt a = pt b) : a = b := by
  apply number_inj (by rw [ha, hb])
  rw [← pt_val ha, ← pt_val hb, h]

theorem be32_inj {a b : UInt32} (h : be32 a = be32 b) : a = b := by
  rw [← ofBe32_be32 a [], ← ofBe32_be32 b [], h]

theorem pt_zero : pt (List.replicate 16 0) = 0 := by decide +kernel

theorem input_length {n : Bytes} (h : n.length = 12) (k : UInt32) : (n ++ be32 k).length = 16 := by
  rw [List.length_append, h, be32_length]

theorem be32_zero : be32 0 = List.replicate 4 0 := by decide

theorem input_inj {n n' : Bytes} (h : n.length = 12) (h' : n'.length = 12) {k k' : UInt32} (he : pt (n ++ be32 k) = pt (n' ++ be32 k')) : n = n' ∧ k = k' := by
  have := List.append_inj (pt_inj (input_length h k) (input_length h' k') he) (by rw [h, h'])
  exact ⟨this.1, be32_inj this.2⟩

theorem input_ne_zero {n : Bytes} (h : n.length = 12) {k : UInt32} (hk : k ≠ 0) : pt (n ++ be32 k) ≠ 0 := by
  intro he
  have h0 : pt (n ++ be32 k) = pt (List.replicate 12 0 ++ be32 0) := by
    rw [he, be32_zero]
    exact pt_zero.symm
  exact hk (input_inj h (by simp) h0).2

theorem counter_ne {m : Bytes} (hm : m.length ≤ maxClear) {i : Nat} (hi : i < (m.length + 15) / 16) : (i + 2).toUInt32 ≠ 0 ∧ (i + 2).toUInt32 ≠ 1 := by
  unfold maxClear at hm
  constructor
  · intro h
    have := congrArg UInt32.toNat h
    simp only [Nat.toUInt32, UInt32.toNat_ofNat', UInt32.toNat_zero] at this
    omega
  · intro h
    have := congrArg UInt32.toNat h
    simp only [Nat.toUInt32, UInt32.toNat_ofNat', UInt32.toNat_one] at this
    omega

theorem counter_inj {m : Bytes} (hm : m.length ≤ maxClear) {i j : Nat} (hi : i < (m.length + 15) / 16) (hj : j < (m.length + 15) / 16)
    (h : (i + 2).toUInt32 = (j + 2).toUInt32) : i = j := by
  unfold maxClear at hm
  have := congrArg UInt32.toNat h
  simp only [Nat.toUInt32, UInt32.toNat_ofNat'] at this
  omega

/-- Counter mode uses no other values than those at the counters from 2. -/
theorem ctr_congr {E E' : Blk → Blk} {n : Bytes} (h : ∀ k : UInt32, k ≠ 0 → k ≠ 1 → E' (pt (n ++ be32 k)) = E (pt (n ++ be32 k))) {m : Bytes} (hm : m.length ≤ maxClear) :
    ctr (onBytes E') n m = ctr (onBytes E) n m := by
  unfold ctr keyStream
  refine congrArg (List.zipWith _ m) ?_
  rw [List.flatMap_def, List.flatMap_def]
  refine congrArg List.flatten (List.map_congr_left fun i hi => ?_)
  obtain ⟨h0, h1⟩ := counter_ne hm (List.mem_range.1 hi)
  rw [onBytes_pt, onBytes_pt, h _ h0 h1]

theorem tag_eq (E : Blk → Blk) (n ad body : Bytes) :
    tag (onBytes E) n ad body = bytes16 (ghash (E 0).val (hashed ad body) ^^^ (E (pt (n ++ be32 1))).val) := by
  unfold tag
  rw [onBytes_pt, onBytes_pt, pt_zero, number_bytes16 (E 0).isLt, bytes16_xor]

/-! ## One forgery at the end -/

/-- Nonce, additional data and ciphertext. -/
abbrev Entry := Bytes × Bytes × Bytes

/-- The ciphertext without the tag. -/
def Entry.body (e : Entry) : Bytes := e.2.2.take (e.2.2.length - 16)

/-- The tag. -/
def Entry.end (e : Entry) : Bytes := e.2.2.drop (e.2.2.length - 16)

/-- A forger who submits one ciphertext, at the end. -/
inductive Single where
  | stop
  | forge (e : Entry)
  | ask (nonce ad m : Bytes) (next : Bytes → Single)

def Single.Proper (L : Nat) : Single → List Bytes → Prop
  | .stop, _ => True
  | .forge e, _ => e.1.length = 12 ∧ units e.2.1 + units e.body ≤ L
  | .ask nonce ad m next, used => nonce.length = 12 ∧ nonce ∉ used ∧ m.length ≤ maxClear ∧ ad.length ≤ limit ∧ units ad + units m ≤ L ∧
      ∀ c, (next c).Proper L (nonce :: used)

/-- What was received and what is submitted. -/
def Single.result (E : Bytes → Bytes) : Single → List Entry → List Entry × Option Entry
  | .stop, seen => (seen, none)
  | .forge e, seen => (seen, some e)
  | .ask nonce ad m next, seen =>
    (next (ctr E nonce m ++ tag E nonce ad (ctr E nonce m))).result E ((nonce, ad, ctr E nonce m ++ tag E nonce ad (ctr E nonce m)) :: seen)

def Accepted (E : Bytes → Bytes) (e : Entry) : Prop := ∃ m, decrypt E e.1 e.2.1 e.2.2 = .ok m

def Single.Wins (E : Bytes → Bytes) (s : Single) (seen : List Entry) : Prop :=
  ∃ e, (s.result E seen).2 = some e ∧ e ∉ (s.result E seen).1 ∧ Accepted E e

theorem accepted_iff {E : Bytes → Bytes} {e : Entry} : Accepted E e ↔
    16 ≤ e.2.2.length ∧ e.body.length ≤ limit ∧ e.2.1.length ≤ limit ∧ e.end = tag E e.1 e.2.1 e.body := by
  unfold Accepted decrypt
  by_cases h16 : e.2.2.length < 16
  · rw [if_pos h16]
    simp only [reduceCtorEq, exists_false, false_iff]
    omega
  rw [if_neg h16]
  simp only
  by_cases hl : limit < (e.2.2.take (e.2.2.length - 16)).length ∨ limit < e.2.1.length
  · rw [if_pos hl]
    simp only [reduceCtorEq, exists_false, false_iff]
    unfold Entry.body
    omega
  rw [if_neg hl]
  by_cases ht : e.2.2.drop (e.2.2.length - 16) = tag E e.1 e.2.1 (e.2.2.take (e.2.2.length - 16))
  · rw [if_pos ht]
    simp only [Res.ok.injEq, exists_eq', true_iff]
    unfold Entry.body Entry.end
    exact ⟨by omega, by omega, by omega, ht⟩
  · rw [if_neg ht]
    simp only [reduceCtorEq, exists_false, false_iff]
    unfold Entry.body Entry.end
    exact fun h => ht h.2.2.2

theorem result_seen {E : Bytes → Bytes} : ∀ {s : Single} {seen : List Entry} {e : Entry}, e ∈ seen → e ∈ (s.result E seen).1
  | .stop, _, _, h => h
  | .forge _, _, _, h => h
  | .ask _ _ _ _, _, _, h => by
    rw [Single.result]
    exact result_seen (List.mem_cons_of_mem _ h)

/-- What holds of received ciphertexts. -/
structure Good (L : Nat) (E : Bytes → Bytes) (seen : List Entry) : Prop where
  nodup : (seen.map Prod.fst).Nodup
  each : ∀ e ∈ seen, e.1.length = 12 ∧ units e.2.1 + units e.body ≤ L ∧ Accepted E e

theorem entry_body {n ad b t : Bytes} (ht : t.length = 16) : Entry.body (n, ad, b ++ t) = b := by
  simp [Entry.body, ht]

theorem entry_end {n ad b t : Bytes} (ht : t.length = 16) : Entry.end (n, ad, b ++ t) = t := by
  simp [Entry.end, ht]

theorem result_good {L : Nat} {E : Bytes → Bytes} (hE : ∀ b, (E b).length = 16) : ∀ {s : Single} {seen : List Entry}, s.Proper L (seen.map Prod.fst) → Good L E seen →
    Good L E (s.result E seen).1 ∧ ∀ e, (s.result E seen).2 = some e → e.1.length = 12 ∧ units e.2.1 + units e.body ≤ L
  | .stop, _, _, hg => ⟨hg, fun _ h => by simp [Single.result] at h⟩
  | .forge e, _, hp, hg => ⟨hg, fun _ h => by
      simp only [Single.result, Option.some.injEq] at h
      exact h ▸ hp⟩
  | .ask n ad m next, seen, hp, hg => by
    obtain ⟨h1, h2, h3, h4, h5, h6⟩ := hp
    rw [Single.result]
    have hc := ctr_length hE n m
    have ht := tag_length hE n ad (ctr E n m)
    apply result_good hE (h6 _)
    refine ⟨List.nodup_cons.2 ⟨h2, hg.nodup⟩, ?_⟩
    intro e he
    rcases List.mem_cons.1 he with rfl | he
    · refine ⟨h1, ?_, accepted_iff.2 ⟨?_, ?_, h4, ?_⟩⟩
      · rw [entry_body ht, units, units, hc]
        exact h5
      · change 16 ≤ (ctr E n m ++ tag E n ad (ctr E n m)).length
        rw [List.length_append, ht]
        omega
      · rw [entry_body ht, hc]
        unfold limit
        unfold maxClear at h3
        omega
      · rw [entry_body ht, entry_end ht]
    · exact hg.each e he

/-- The course is the same for block functions which give the same ciphertexts. -/
theorem result_congr {L : Nat} {E E' : Bytes → Bytes} (hE : ∀ b, (E b).length = 16) (hctr : ∀ n m : Bytes, n.length = 12 → m.length ≤ maxClear → ctr E' n m = ctr E n m) :
    ∀ {s : Single} {seen : List Entry}, s.Proper L (seen.map Prod.fst) → (∀ e ∈ (s.result E seen).1, tag E' e.1 e.2.1 e.body = tag E e.1 e.2.1 e.body) →
      s.result E' seen = s.result E seen
  | .stop, _, _, _ => rfl
  | .forge _, _, _, _ => rfl
  | .ask n ad m next, seen, hp, ht => by
    obtain ⟨h1, h2, h3, h4, h5, h6⟩ := hp
    have hlen := tag_length hE n ad (ctr E n m)
    rw [Single.result] at ht ⊢
    have h := ht _ (result_seen (List.mem_cons_self))
    rw [entry_body hlen] at h
    rw [Single.result, hctr n m h1 h3, h]
    exact result_congr hE hctr (h6 _) ht

/-! ## Changing the block function without changing the course -/

/-- The nonce of the submitted ciphertext, if no ciphertext was received for it. -/
def freshNonce (r : List Entry × Option Entry) : Option Bytes :=
  match r.2 with
  | some e => if e.1 ∈ r.1.map Prod.fst then none else some e.1
  | none => none

/-- The sum of the hashes of an entry for two hash keys. -/
def mask (h h' : Blk) (e : Entry) : Nat := ghash h.val (hashed e.2.1 e.body) ^^^ ghash h'.val (hashed e.2.1 e.body)

theorem mask_lt (h h' : Blk) (e : Entry) : mask h h' e < 2 ^ 128 := xor_lt (ghash_lt h.isLt _) (ghash_lt h'.isLt _)

/-- Another hash key, with the masks of the tags changed such that the received tags stay the same. -/
def rekey (seen : List Entry) (E : Blk → Blk) (h : Blk) (x : Blk) : Blk :=
  if x = 0 then h
  else
    match seen.find? fun e => pt (e.1 ++ be32 1) = x with
    | some e => ⟨(E x).val ^^^ mask (E 0) h e, xor_lt (E x).isLt (mask_lt _ _ _)⟩
    | none => E x

theorem rekey_zero (seen : List Entry) (E : Blk → Blk) (h : Blk) : rekey seen E h 0 = h := by simp [rekey]

theorem rekey_some {seen : List Entry} {x : Blk} (hx : x ≠ 0) {e : Entry} (hq : (seen.find? fun e => pt (e.1 ++ be32 1) = x) = some e) (E : Blk → Blk) (h : Blk) :
    (rekey seen E h x).val = (E x).val ^^^ mask (E 0) h e := by
  unfold rekey
  rw [if_neg hx, hq]

theorem rekey_none {seen : List Entry} {x : Blk} (hx : x ≠ 0) (hq : (seen.find? fun e => pt (e.1 ++ be32 1) = x) = none) (E : Blk → Blk) (h : Blk) :
    rekey seen E h x = E x := by
  unfold rekey
  rw [if_neg hx, hq]

/-- The change: of the mask for a fresh nonce, or else of the hash key. -/
def Single.shift (s : Single) (E : Blk → Blk) (h : Blk) : Blk → Blk :=
  match freshNonce (s.result (onBytes E) []) with
  | some n => Function.update E (pt (n ++ be32 1)) h
  | none => rekey (s.result (onBytes E) []).1 E h

/-- What is changed. -/
def Single.base (s : Single) (E : Blk → Blk) : Blk :=
  match freshNonce (s.result (onBytes E) []) with
  | some n => E (pt (n ++ be32 1))
  | none => E 0

theorem freshNonce_eq {r : List Entry × Option Entry} {n : Bytes} (h : freshNonce r = some n) : ∃ e, r.2 = some e ∧ e.1 = n ∧ n ∉ r.1.map Prod.fst := by
  unfold freshNonce at h
  cases hr : r.2 with
  | none => simp [hr] at h
  | some e =>
    rw [hr] at h
    simp only at h
    split at h
    · simp at h
    · rename_i hn
      simp only [Option.some.injEq] at h
      exact ⟨e, rfl, h, h ▸ hn⟩

theorem rekey_find {L : Nat} {E' : Bytes → Bytes} {seen : List Entry} (hg : Good L E' seen) {e : Entry} (he : e ∈ seen) :
    (seen.find? fun e' => pt (e'.1 ++ be32 1) = pt (e.1 ++ be32 1)) = some e := by
  cases hf : seen.find? fun e' => pt (e'.1 ++ be32 1) = pt (e.1 ++ be32 1) with
  | none =>
    have := List.find?_eq_none.1 hf e he
    simp at this
  | some e' =>
    have h1 := List.find?_some hf
    have h2 := List.mem_of_find?_eq_some hf
    simp only [decide_eq_true_eq] at h1
    have h3 := (input_inj (hg.each e' h2).1 (hg.each e he).1 h1).1
    rw [List.inj_on_of_nodup_map hg.nodup h2 he h3]

theorem rekey_other {L : Nat} {E' : Bytes → Bytes} {seen : List Entry} (hg : Good L E' seen) (E : Blk → Blk) (h : Blk) {n : Bytes} (hn : n.length = 12) {k : UInt32}
    (h0 : k ≠ 0) (h1 : k ≠ 1) : rekey seen E h (pt (n ++ be32 k)) = E (pt (n ++ be32 k)) := by
  unfold rekey
  rw [if_neg (input_ne_zero hn h0)]
  cases hf : seen.find? fun e' => pt (e'.1 ++ be32 1) = pt (n ++ be32 k) with
  | none => rfl
  | some e' =>
    have h3 := List.find?_some hf
    have h2 := List.mem_of_find?_eq_some hf
    simp only [decide_eq_true_eq] at h3
    exact absurd (input_inj (hg.each e' h2).1 hn h3).2.symm h1

variable {L : Nat} {s : Single}

theorem nil_good (E : Bytes → Bytes) : Good L E [] := ⟨by simp, by simp⟩

theorem shift_result (hp : s.Proper L []) (E : Blk → Blk) (h : Blk) : s.result (onBytes (s.shift E h)) [] = s.result (onBytes E) [] := by
  obtain ⟨hg, hend⟩ := result_good (onBytes_length E) (seen := []) hp (nil_good _)
  unfold Single.shift
  cases hf : freshNonce (s.result (onBytes E) []) with
  | some n =>
    obtain ⟨e, he, hen, hn⟩ := freshNonce_eq hf
    have hn12 : n.length = 12 := hen ▸ (hend e he).1
    refine result_congr (L := L) (onBytes_length E) ?_ hp ?_
    · intro n' m hn' hm
      refine ctr_congr (fun k h0 h1 => ?_) hm
      exact Function.update_of_ne (fun h => h1 (input_inj hn' hn12 h).2) _ _
    · intro e' he'
      rw [tag_eq, tag_eq]
      congr 3
      · simp only
        rw [Function.update_of_ne (input_ne_zero hn12 (by decide)).symm]
      · simp only
        rw [Function.update_of_ne]
        intro h
        have := (input_inj (hg.each e' he').1 hn12 h).1
        exact hn (this ▸ List.mem_map_of_mem he')
  | none =>
    refine result_congr (L := L) (onBytes_length E) ?_ hp ?_
    · intro n m hn hm
      exact ctr_congr (fun k h0 h1 => rekey_other hg E h hn h0 h1) hm
    · intro e he
      rw [tag_eq, tag_eq]
      have h0 : rekey (s.result (onBytes E) []).1 E h 0 = h := by simp [rekey]
      have h1 : (rekey (s.result (onBytes E) []).1 E h (pt (e.1 ++ be32 1))).val = (E (pt (e.1 ++ be32 1))).val ^^^ mask (E 0) h e := by
        unfold rekey
        rw [if_neg (input_ne_zero (hg.each e he).1 (by decide)), rekey_find hg he]
      simp only
      rw [h0, h1]
      unfold mask
      refine congrArg bytes16 ?_
      generalize ghash (E 0).val _ = a
      generalize ghash h.val _ = b
      rw [← Nat.xor_assoc, Nat.xor_comm, ← Nat.xor_assoc, Nat.xor_assoc a, Nat.xor_self, Nat.xor_zero]

theorem shift_base (hp : s.Proper L []) (E : Blk → Blk) (h : Blk) : s.base (s.shift E h) = h := by
  unfold Single.base
  rw [shift_result hp]
  unfold Single.shift
  cases hf : freshNonce (s.result (onBytes E) []) with
  | some n => simp
  | none => simp [rekey]

theorem shift_shift (hp : s.Proper L []) (E : Blk → Blk) (h h' : Blk) : s.shift (s.shift E h) h' = s.shift E h' := by
  have hr := shift_result hp E h
  have e : s.shift (s.shift E h) h' =
      match freshNonce (s.result (onBytes E) []) with
      | some n => Function.update (s.shift E h) (pt (n ++ be32 1)) h'
      | none => rekey (s.result (onBytes E) []).1 (s.shift E h) h' := by
    rw [← hr]
    rfl
  rw [e]
  clear e hr
  unfold Single.shift
  cases hf : freshNonce (s.result (onBytes E) []) with
  | some n => simp
  | none =>
    funext x
    simp only
    by_cases hx : x = 0
    · rw [hx, rekey_zero, rekey_zero]
    · cases hq : (s.result (onBytes E) []).1.find? fun e => pt (e.1 ++ be32 1) = x with
      | none => rw [rekey_none hx hq, rekey_none hx hq, rekey_none hx hq]
      | some e =>
        apply Fin.ext
        rw [rekey_some hx hq, rekey_some hx hq, rekey_some hx hq, rekey_zero]
        unfold mask
        generalize ghash (E 0).val _ = a
        generalize ghash h.val _ = b
        generalize ghash h'.val _ = c
        rw [Nat.xor_assoc, Nat.xor_assoc a b, ← Nat.xor_assoc b b c, Nat.xor_self, Nat.zero_xor]

theorem shift_self (E : Blk → Blk) : s.shift E (s.base E) = E := by
  unfold Single.shift Single.base
  cases hf : freshNonce (s.result (onBytes E) []) with
  | some n => simp
  | none =>
    funext x
    simp only
    by_cases hx : x = 0
    · rw [hx, rekey_zero]
    · cases hq : (s.result (onBytes E) []).1.find? fun e => pt (e.1 ++ be32 1) = x with
      | none => rw [rekey_none hx hq]
      | some e =>
        apply Fin.ext
        rw [rekey_some hx hq, mask, Nat.xor_self, Nat.xor_zero]

theorem shift_involutive (hp : s.Proper L []) : Function.Involutive fun p : (Blk → Blk) × Blk => (s.shift p.1 p.2, s.base p.1) := by
  rintro ⟨E, h⟩
  simp only
  rw [shift_shift hp, shift_base hp, shift_self]

theorem entry_eq {e e' : Entry} (h1 : e.1 = e'.1) (h2 : e.2.1 = e'.2.1) (h3 : e.body = e'.body) (h4 : e.end = e'.end) : e = e' := by
  obtain ⟨n, ad, c⟩ := e
  obtain ⟨n', ad', c'⟩ := e'
  simp only at h1 h2
  subst h1 h2
  unfold Entry.body at h3
  unfold Entry.end at h4
  simp only at h3 h4
  rw [← List.take_append_drop (c.length - 16) c, h3, h4, List.take_append_drop]

open Classical in
/-- For every course, few changes make the forgery accepted. -/
theorem shift_wins (hp : s.Proper L []) (E : Blk → Blk) : (Finset.univ.filter fun h : Blk => s.Wins (onBytes (s.shift E h)) []).card ≤ L + 1 := by
  obtain ⟨hg, hend⟩ := result_good (onBytes_length E) (seen := []) hp (nil_good _)
  cases hr : (s.result (onBytes E) []).2 with
  | none =>
    rw [Finset.filter_false_of_mem]
    · simp
    · rintro h _ ⟨e, he, _⟩
      rw [shift_result hp, hr] at he
      simp at he
  | some e =>
    obtain ⟨hn, hu⟩ := hend e hr
    by_cases hf : e.1 ∈ (s.result (onBytes E) []).1.map Prod.fst
    · obtain ⟨e', he', hee⟩ := List.mem_map.1 hf
      by_cases hmem : e ∈ (s.result (onBytes E) []).1
      · rw [Finset.filter_false_of_mem]
        · simp
        · rintro h _ ⟨e'', he'', hno, _⟩
          rw [shift_result hp, hr] at he''
          rw [shift_result hp] at hno
          cases he''
          exact hno hmem
      · have hfresh : freshNonce (s.result (onBytes E) []) = none := by
          unfold freshNonce
          rw [hr]
          simp only [if_pos hf]
        obtain ⟨-, hb', ha', -⟩ := accepted_iff.1 (hg.each e' he').2.2
        by_cases hsz : e.body.length ≤ limit ∧ e.2.1.length ≤ limit
        · by_cases hne : (e.2.1, e.body) = (e'.2.1, Entry.body e')
          · rw [Finset.filter_false_of_mem]
            · simp
            · rintro h _ ⟨e'', he'', _, hacc⟩
              rw [shift_result hp, hr] at he''
              cases he''
              have hg' := (result_good (onBytes_length (s.shift E h)) (seen := []) hp (nil_good _)).1
              rw [shift_result hp] at hg'
              have h1 := (accepted_iff.1 (hg'.each e' he').2.2).2.2.2
              have h2 := (accepted_iff.1 hacc).2.2.2
              simp only [Prod.mk.injEq] at hne
              rw [hne.1, hne.2, ← hee, ← h1] at h2
              exact hmem (entry_eq hee hne.1.symm hne.2.symm h2.symm ▸ he')
          · refine le_trans (Finset.card_le_card ?_) (ghash_collisions hsz.2 hsz.1 ha' hb' hne (number e.end ^^^ number (Entry.end e')) hu (hg.each e' he').2.1)
            intro h hh
            rw [Finset.mem_filter] at hh ⊢
            refine ⟨Finset.mem_univ _, ?_⟩
            obtain ⟨e'', he'', _, hacc⟩ := hh.2
            rw [shift_result hp, hr] at he''
            cases he''
            have hg' := (result_good (onBytes_length (s.shift E h)) (seen := []) hp (nil_good _)).1
            rw [shift_result hp] at hg'
            have h1 := (accepted_iff.1 (hg'.each e' he').2.2).2.2.2
            have h2 := (accepted_iff.1 hacc).2.2.2
            have h0 : s.shift E h 0 = h := by
              unfold Single.shift
              rw [hfresh]
              simp [rekey]
            rw [tag_eq, h0] at h1 h2
            rw [h1, h2, hee, number_bytes16 (xor_lt (ghash_lt h.isLt _) (Fin.isLt _)), number_bytes16 (xor_lt (ghash_lt h.isLt _) (Fin.isLt _))]
            generalize ghash h.val _ = a
            generalize ghash h.val _ = b
            generalize (s.shift E h _).val = c
            rw [Nat.xor_comm b c, Nat.xor_assoc, ← Nat.xor_assoc c c b, Nat.xor_self, Nat.zero_xor]
        · rw [Finset.filter_false_of_mem]
          · simp
          · rintro h _ ⟨e'', he'', _, hacc⟩
            rw [shift_result hp, hr] at he''
            cases he''
            have h2 := accepted_iff.1 hacc
            exact hsz ⟨h2.2.1, h2.2.2.1⟩
    · have hfresh : freshNonce (s.result (onBytes E) []) = some e.1 := by
        unfold freshNonce
        rw [hr]
        simp only [if_neg hf]
      refine le_trans (Finset.card_le_one.2 ?_) (by omega)
      have key : ∀ h : Blk, s.Wins (onBytes (s.shift E h)) [] → e.end = bytes16 (ghash (E 0).val (hashed e.2.1 e.body) ^^^ h.val) := by
        rintro h ⟨e'', he'', _, hacc⟩
        rw [shift_result hp, hr] at he''
        cases he''
        have h2 := (accepted_iff.1 hacc).2.2.2
        have h0 : s.shift E h 0 = E 0 := by
          unfold Single.shift
          rw [hfresh]
          exact Function.update_of_ne (input_ne_zero hn (by decide)).symm _ _
        have h1 : s.shift E h (pt (e.1 ++ be32 1)) = h := by
          unfold Single.shift
          rw [hfresh]
          exact Function.update_self _ _ _
        rw [tag_eq, h0, h1] at h2
        exact h2
      intro h hh h' hh'
      rw [Finset.mem_filter] at hh hh'
      have h1 := (key h hh.2).symm.trans (key h' hh'.2)
      have h2 := bytes16_inj (xor_lt (ghash_lt (E 0).isLt _) h.isLt) (xor_lt (ghash_lt (E 0).isLt _) h'.isLt) h1
      have h3 := congrArg (ghash (E 0).val (hashed e.2.1 e.body) ^^^ ·) h2
      simp only [← Nat.xor_assoc, Nat.xor_self, Nat.zero_xor] at h3
      exact Fin.ext h3

open Classical in
theorem count_shift {α β : Type} [Fintype α] [Fintype β] (T : α → β → α) (base : α → β) (hT : Function.Involutive fun p : α × β => (T p.1 p.2, base p.1))
    (W : α → Prop) (k : Nat) (hk : ∀ a, (Finset.univ.filter fun b => W (T a b)).card ≤ k) :
    (Finset.univ.filter W).card * Fintype.card β ≤ k * Fintype.card α := by
  have h1 : (Finset.univ.filter W).card * Fintype.card β = (Finset.univ.filter fun p : α × β => W p.1).card := by
    have : (Finset.univ.filter fun p : α × β => W p.1) = (Finset.univ.filter W) ×ˢ (Finset.univ : Finset β) := by
      ext p
      simp
    rw [this, Finset.card_product, Finset.card_univ]
  have h2 : (Finset.univ.filter fun p : α × β => W p.1).card = (Finset.univ.filter fun p : α × β => W (T p.1 p.2)).card := by
    refine Finset.card_bij' (fun p _ => (T p.1 p.2, base p.1)) (fun p _ => (T p.1 p.2, base p.1)) ?_ ?_ ?_ ?_
    · intro p hpm
      rw [Finset.mem_filter] at hpm ⊢
      refine ⟨Finset.mem_univ _, ?_⟩
      have := congrArg Prod.fst (hT p)
      simp only at this
      simp only
      rw [this]
      exact hpm.2
    · intro p hpm
      rw [Finset.mem_filter] at hpm ⊢
      exact ⟨Finset.mem_univ _, hpm.2⟩
    · intro p _
      exact hT p
    · intro p _
      exact hT p
  have h3 : (Finset.univ.filter fun p : α × β => W (T p.1 p.2)).card = ∑ a : α, (Finset.univ.filter fun b => W (T a b)).card := by
    simp only [Finset.card_filter]
    rw [Fintype.sum_prod_type]
  rw [h1, h2, h3]
  refine (Finset.sum_le_sum fun E _ => hk E).trans ?_
  rw [Finset.sum_const, Finset.card_univ, smul_eq_mul, Nat.mul_comm]

open Classical in
/-- How many block functions let the forger win. -/
theorem single_card (hp : s.Proper L []) :
    (Finset.univ.filter fun E : Blk → Blk => s.Wins (onBytes E) []).card * 2 ^ 128 ≤ (L + 1) * Fintype.card (Blk → Blk) := by
  have h := count_shift s.shift s.base (shift_involutive hp) (fun E => s.Wins (onBytes E) []) (L + 1) (shift_wins hp)
  rwa [Fintype.card_fin] at h

/-! ## Several forgeries -/

/-- The answer to a submitted ciphertext that was received. -/
def answer (seen : List (Entry × Bytes)) (e : Entry) : Option Bytes := (seen.find? fun x => x.1 = e).map Prod.snd

/-- The forger who submits nothing but the `i`-th ciphertext, taking the ones before as refused unless received. -/
def Forger.single : Forger → List (Entry × Bytes) → Nat → Single
  | .stop, _, _ => .stop
  | .ask nonce ad m next, seen, i => .ask nonce ad m fun c => (next c).single (((nonce, ad, c), m) :: seen) i
  | .submit nonce ad c _, _, 0 => .forge (nonce, ad, c)
  | .submit nonce ad c next, seen, i + 1 => (next (answer seen (nonce, ad, c))).single seen i

theorem single_proper : ∀ {A : Forger} {v : Nat} {used : List Bytes}, A.Proper L v used → ∀ (seen : List (Entry × Bytes)) (i : Nat), (A.single seen i).Proper L used
  | .stop, _, _, _, _, _ => trivial
  | .ask _ _ _ _, _, _, h, _, _ => ⟨h.1, h.2.1, h.2.2.1, h.2.2.2.1, h.2.2.2.2.1, fun c => single_proper (h.2.2.2.2.2 c) _ _⟩
  | .submit _ _ _ _, _, _, h, _, 0 => ⟨h.1, h.2.1⟩
  | .submit _ _ _ _, _, _, h, _, _ + 1 => single_proper (h.2.2.2 _) _ _

theorem single_wins {E : Bytes → Bytes} (hE : ∀ b, (E b).length = 16) : ∀ {A : Forger} {v : Nat} {used : List Bytes}, A.Proper L v used → ∀ {seen : List (Entry × Bytes)},
    (∀ x ∈ seen, decrypt E x.1.1 x.1.2.1 x.1.2.2 = .ok x.2) → A.Wins E (seen.map Prod.fst) → ∃ i < v, (A.single seen i).Wins E (seen.map Prod.fst)
  | .stop, _, _, _, _, _, h => h.elim
  | .ask n ad m next, v, used, hp, seen, hs, h => by
    obtain ⟨h1, h2, h3, h4, h5, h6⟩ := hp
    have he : encrypt E n ad m = .ok (ctr E n m ++ tag E n ad (ctr E n m)) := encrypt_eq_ok.2 ⟨by unfold limit; unfold maxClear at h3; omega, h4, rfl⟩
    rw [Forger.Wins, he] at h
    obtain ⟨i, hi, hw⟩ := single_wins hE (h6 _) (seen := ((n, ad, ctr E n m ++ tag E n ad (ctr E n m)), m) :: seen) (by
      intro x hx
      rcases List.mem_cons.1 hx with rfl | hx
      · exact (decrypt_eq_ok hE).2 he
      · exact hs x hx) h
    exact ⟨i, hi, hw⟩
  | .submit n ad c next, v, used, hp, seen, hs, h => by
    obtain ⟨h1, h2, h3, h4⟩ := hp
    have hans : ∀ m, answer seen (n, ad, c) = some m → decrypt E n ad c = .ok m := by
      intro m hm
      unfold answer at hm
      obtain ⟨x, hx, rfl⟩ := Option.map_eq_some_iff.1 hm
      have h5 := List.find?_some hx
      simp only [decide_eq_true_eq] at h5
      have h6 := hs x (List.mem_of_find?_eq_some hx)
      rw [h5] at h6
      exact h6
    have hnone : answer seen (n, ad, c) = none → (n, ad, c) ∉ seen.map Prod.fst := by
      intro hm hmem
      unfold answer at hm
      rw [Option.map_eq_none_iff, List.find?_eq_none] at hm
      obtain ⟨x, hx, he⟩ := List.mem_map.1 hmem
      exact hm x hx (by simpa using he)
    have hzero : (n, ad, c) ∉ seen.map Prod.fst → (∃ m, decrypt E n ad c = .ok m) → ∃ i < v, ((Forger.submit n ad c next).single seen i).Wins E (seen.map Prod.fst) :=
      fun hn ha => ⟨0, h3, (n, ad, c), rfl, hn, ha⟩
    have hsucc : (next (answer seen (n, ad, c))).Wins E (seen.map Prod.fst) → ∃ i < v, ((Forger.submit n ad c next).single seen i).Wins E (seen.map Prod.fst) := by
      intro hw
      obtain ⟨i, hi, hw'⟩ := single_wins hE (h4 _) hs hw
      exact ⟨i + 1, by omega, hw'⟩
    rw [Forger.Wins] at h
    cases hd : decrypt E n ad c with
    | ok m =>
      rw [hd] at h
      rcases h with h | h
      · exact hzero h ⟨m, hd⟩
      · cases ha : answer seen (n, ad, c) with
        | none => exact hzero (hnone ha) ⟨m, hd⟩
        | some m' =>
          have := hans m' ha
          rw [hd] at this
          cases this
          exact hsucc (ha ▸ h)
    | err e =>
      rw [hd] at h
      cases ha : answer seen (n, ad, c) with
      | none => exact hsucc (ha ▸ h)
      | some m' =>
        have := hans m' ha
        rw [hd] at this
        cases this
    | panic => exact absurd hd (decrypt_total _ _ _)

open Classical in
theorem count_union {α : Type} [Fintype α] (W : α → Prop) (V : Nat → α → Prop) (v : Nat) (h : ∀ a, W a → ∃ i < v, V i a) {B k : Nat}
    (hV : ∀ i, (Finset.univ.filter (V i)).card * B ≤ k) : (Finset.univ.filter W).card * B ≤ v * k := by
  have h1 : Finset.univ.filter W ⊆ (Finset.range v).biUnion fun i => Finset.univ.filter (V i) := by
    intro a ha
    rw [Finset.mem_filter] at ha
    obtain ⟨i, hi, hw⟩ := h a ha.2
    rw [Finset.mem_biUnion]
    refine ⟨i, Finset.mem_range.2 hi, ?_⟩
    rw [Finset.mem_filter]
    exact ⟨ha.1, hw⟩
  have h2 := (Finset.card_le_card h1).trans Finset.card_biUnion_le
  refine (Nat.mul_le_mul_right _ h2).trans ?_
  rw [Finset.sum_mul]
  refine (Finset.sum_le_sum fun i _ => hV i).trans ?_
  rw [Finset.sum_const, Finset.card_range, smul_eq_mul]

open Classical in
/-- How many block functions let a forger win who submits at most `v` ciphertexts. -/
theorem forger_card {A : Forger} {v : Nat} (hp : A.Proper L v []) :
    (Finset.univ.filter fun E : Blk → Blk => A.Wins (onBytes E) []).card * 2 ^ 128 ≤ v * ((L + 1) * Fintype.card (Blk → Blk)) :=
  count_union (fun E => A.Wins (onBytes E) []) (fun i E => (A.single [] i).Wins (onBytes E) []) v
    (fun E hE => single_wins (onBytes_length E) hp (seen := []) (by simp) hE) fun i => single_card (single_proper hp [] i)

end Abe.Gcm

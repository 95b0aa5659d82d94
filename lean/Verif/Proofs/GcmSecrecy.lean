import Verif.Proofs.GcmForge

/-!
# Secrecy: lemmas
-/

namespace Abe.Gcm

theorem keyStream_succ (E : Bytes → Bytes) (n : Bytes) (k : Nat) : keyStream E n (k + 1) = keyStream E n k ++ E (n ++ be32 (k + 2).toUInt32) := by
  simp [keyStream, List.range_succ]

theorem keyStream_getElem? {E : Bytes → Bytes} (hE : ∀ b, (E b).length = 16) (n : Bytes) : ∀ (k j : Nat), j < 16 * k →
    (keyStream E n k)[j]? = (E (n ++ be32 (j / 16 + 2).toUInt32))[j % 16]?
  | 0, j, h => by omega
  | k + 1, j, h => by
    rw [keyStream_succ]
    rcases Nat.lt_or_ge j (16 * k) with hj | hj
    · rw [List.getElem?_append_left (by rwa [keyStream_length hE]), keyStream_getElem? hE n k j hj]
    · rw [List.getElem?_append_right (by rwa [keyStream_length hE]), keyStream_length hE, show j - 16 * k = j % 16 by omega, show k = j / 16 by omega]

/-- The `i`-th block of bytes, filled with zeros. -/
def chunk (b : Bytes) (i : Nat) : Bytes := ((b.drop (16 * i)).take 16 ++ List.replicate 16 0).take 16

theorem chunk_length (b : Bytes) (i : Nat) : (chunk b i).length = 16 := padded_length b i

/-- The difference of the `i`-th blocks. -/
def delta (m₀ m₁ : Bytes) (i : Nat) : Nat := number (chunk m₀ i) ^^^ number (chunk m₁ i)

theorem delta_lt (m₀ m₁ : Bytes) (i : Nat) : delta m₀ m₁ i < 2 ^ 128 := xor_lt (number_lt16 (chunk_length _ _)) (number_lt16 (chunk_length _ _))

/-- The block function changed at the counters of a nonce by the difference of two clear texts. -/
def patch (n m₀ m₁ : Bytes) (E : Blk → Blk) (x : Blk) : Blk :=
  match (List.range (units m₀)).find? fun i => pt (n ++ be32 (i + 2).toUInt32) = x with
  | some i => ⟨(E x).val ^^^ delta m₀ m₁ i, xor_lt (E x).isLt (delta_lt _ _ _)⟩
  | none => E x

theorem patch_patch (n m₀ m₁ : Bytes) (E : Blk → Blk) : patch n m₀ m₁ (patch n m₀ m₁ E) = E := by
  funext x
  cases hf : (List.range (units m₀)).find? fun i => pt (n ++ be32 (i + 2).toUInt32) = x with
  | none =>
    have h : ∀ E, patch n m₀ m₁ E x = E x := by
      intro E
      unfold patch
      rw [hf]
    rw [h, h]
  | some i =>
    have h : ∀ E, (patch n m₀ m₁ E x).val = (E x).val ^^^ delta m₀ m₁ i := by
      intro E
      unfold patch
      rw [hf]
    apply Fin.ext
    rw [h, h, Nat.xor_assoc, Nat.xor_self, Nat.xor_zero]

theorem patch_other {n m₀ m₁ : Bytes} {E : Blk → Blk} {x : Blk} (h : ∀ i < units m₀, pt (n ++ be32 (i + 2).toUInt32) ≠ x) : patch n m₀ m₁ E x = E x := by
  unfold patch
  cases hf : (List.range (units m₀)).find? fun i => pt (n ++ be32 (i + 2).toUInt32) = x with
  | none => rfl
  | some i =>
    have h1 := List.find?_some hf
    simp only [decide_eq_true_eq] at h1
    exact absurd h1 (h i (List.mem_range.1 (List.mem_of_find?_eq_some hf)))

theorem patch_counter {n m₀ m₁ : Bytes} (hn : n.length = 12) (hm : m₀.length ≤ maxClear) (E : Blk → Blk) {i : Nat} (hi : i < units m₀) :
    (patch n m₀ m₁ E (pt (n ++ be32 (i + 2).toUInt32))).val = (E (pt (n ++ be32 (i + 2).toUInt32))).val ^^^ delta m₀ m₁ i := by
  unfold patch
  cases hf : (List.range (units m₀)).find? fun j => pt (n ++ be32 (j + 2).toUInt32) = pt (n ++ be32 (i + 2).toUInt32) with
  | none =>
    have := List.find?_eq_none.1 hf i (List.mem_range.2 hi)
    simp at this
  | some j =>
    have h1 := List.find?_some hf
    simp only [decide_eq_true_eq] at h1
    have hj := List.mem_range.1 (List.mem_of_find?_eq_some hf)
    have := counter_inj hm hj hi (input_inj hn hn h1).2
    subst this
    rfl

theorem ctr_getElem? {E : Bytes → Bytes} (hE : ∀ b, (E b).length = 16) (n m : Bytes) {j : Nat} (hj : j < m.length) :
    (ctr E n m)[j]? = (List.zipWith (· ^^^ ·) (chunk m (j / 16)) (E (n ++ be32 (j / 16 + 2).toUInt32)))[j % 16]? := by
  unfold ctr
  rw [List.getElem?_zipWith, List.getElem?_zipWith, keyStream_getElem? hE n _ j (by omega), chunk, padded_getElem? m (Nat.mod_lt _ (by omega)) (by omega),
    show 16 * (j / 16) + j % 16 = j by omega]

theorem patch_ctr {n m₀ m₁ : Bytes} (hn : n.length = 12) (hl : m₀.length = m₁.length) (hm : m₀.length ≤ maxClear) (E : Blk → Blk) :
    ctr (onBytes (patch n m₀ m₁ E)) n m₁ = ctr (onBytes E) n m₀ := by
  refine List.ext_getElem? fun j => ?_
  rcases Nat.lt_or_ge j m₀.length with hj | hj
  · rw [ctr_getElem? (onBytes_length _) n m₁ (hl ▸ hj), ctr_getElem? (onBytes_length _) n m₀ hj, onBytes_pt, onBytes_pt,
      patch_counter hn hm E (i := j / 16) (by unfold units; omega), ← bytes16_number (chunk_length m₁ _), bytes16_xor, ← bytes16_number (chunk_length m₀ _), bytes16_xor]
    unfold delta
    generalize (E _).val = a
    generalize number (chunk m₀ _) = b
    generalize number (chunk m₁ _) = c
    rw [Nat.xor_comm, ← Nat.xor_assoc, Nat.xor_assoc _ c c, Nat.xor_self, Nat.xor_zero, Nat.xor_comm]
  · rw [List.getElem?_eq_none (by rw [ctr_length (onBytes_length _)]; omega), List.getElem?_eq_none (by rw [ctr_length (onBytes_length _)]; omega)]

/-- The guesser sees nothing of the block function at counters of nonces used before. -/
theorem says_congr {E E' : Blk → Blk} (side : Bool) (D : Guesser) (used : List Bytes) (hp : D.Proper used) (h0 : E' 0 = E 0)
    (hk : ∀ (n : Bytes) (k : UInt32), n.length = 12 → k = 1 ∨ n ∉ used → E' (pt (n ++ be32 k)) = E (pt (n ++ be32 k))) :
    D.says (onBytes E') side = D.says (onBytes E) side := by
  induction D generalizing used with
  | guess _ => simp only [Guesser.says]
  | ask n ad m₀ m₁ next ih =>
    obtain ⟨h1, h2, h3, h4, h5, h6⟩ := hp
    have hm : (if side then m₁ else m₀).length ≤ maxClear := by
      split
      · exact h3 ▸ h4
      · exact h4
    have he : encrypt (onBytes E') n ad (if side then m₁ else m₀) = encrypt (onBytes E) n ad (if side then m₁ else m₀) := by
      unfold encrypt
      rw [ctr_congr (fun k _ _ => hk n k h1 (Or.inr h2)) hm, tag_eq, tag_eq, h0, hk n 1 h1 (Or.inl rfl)]
    rw [Guesser.says, Guesser.says, he]
    split
    · refine ih _ (n :: used) (h6 _) fun n' k hn' hor => hk n' k hn' ?_
      rcases hor with h | h
      · exact Or.inl h
      · exact Or.inr fun h' => h (List.mem_cons_of_mem _ h')
    · rfl

/-- Block functions for which the second clear texts look like the first ones do. -/
theorem guesser_swap : ∀ (D : Guesser) (used : List Bytes), D.Proper used → ∃ F : (Blk → Blk) → Blk → Blk, Function.Injective F ∧ (∀ E, F E 0 = E 0) ∧
    (∀ E (n : Bytes) (k : UInt32), n.length = 12 → k = 1 ∨ n ∈ used → F E (pt (n ++ be32 k)) = E (pt (n ++ be32 k))) ∧
    ∀ E, D.says (onBytes (F E)) true = D.says (onBytes E) false
  | .guess b, _, _ => ⟨id, Function.injective_id, fun _ => rfl, fun _ _ _ _ _ => rfl, fun _ => rfl⟩
  | .ask n ad m₀ m₁ next, used, hp => by
    obtain ⟨h1, h2, h3, h4, h5, h6⟩ := hp
    choose F hi h0 hk hs using fun c => guesser_swap (next c) (n :: used) (h6 c)
    let c : (Blk → Blk) → Bytes := fun E => ctr (onBytes E) n m₀ ++ tag (onBytes E) n ad (ctr (onBytes E) n m₀)
    have hm1 : m₀.length ≤ limit := by unfold limit; unfold maxClear at h4; omega
    have he : ∀ E, encrypt (onBytes E) n ad m₀ = .ok (c E) := fun E => encrypt_eq_ok.2 ⟨hm1, h5, rfl⟩
    have hpz : ∀ E, patch n m₀ m₁ E 0 = E 0 := fun E => patch_other fun i hi => input_ne_zero h1 (counter_ne h4 hi).1
    have hpk : ∀ E (n' : Bytes) (k : UInt32), n'.length = 12 → k = 1 ∨ n' ∈ used → patch n m₀ m₁ E (pt (n' ++ be32 k)) = E (pt (n' ++ be32 k)) := by
      intro E n' k hn' hor
      refine patch_other fun i hi heq => ?_
      obtain ⟨e1, e2⟩ := input_inj h1 hn' heq
      rcases hor with rfl | hor
      · exact (counter_ne h4 hi).2 e2
      · exact h2 (e1 ▸ hor)
    have hc : ∀ E d, ctr (onBytes (patch n m₀ m₁ (F d E))) n m₁ ++ tag (onBytes (patch n m₀ m₁ (F d E))) n ad (ctr (onBytes (patch n m₀ m₁ (F d E))) n m₁) = c E := by
      intro E d
      rw [patch_ctr h1 h3 h4, ctr_congr (E := E) (fun k _ _ => hk d E n k h1 (Or.inr List.mem_cons_self)) h4, tag_eq, hpz, hpk _ _ _ h1 (Or.inl rfl), h0 d,
        hk d E n 1 h1 (Or.inl rfl), ← tag_eq]
    have he' : ∀ E d, encrypt (onBytes (patch n m₀ m₁ (F d E))) n ad m₁ = .ok (c E) := fun E d => encrypt_eq_ok.2 ⟨h3 ▸ hm1, h5, (hc E d).symm⟩
    refine ⟨fun E => patch n m₀ m₁ (F (c E) E), ?_, ?_, ?_, ?_⟩
    · intro E E' heq
      simp only at heq
      have hcc : c E = c E' := by rw [← hc E (c E), heq, hc E' (c E')]
      have h := congrArg (patch n m₀ m₁) heq
      rw [patch_patch, patch_patch, hcc] at h
      exact hi _ h
    · intro E
      simp only
      rw [hpz, h0]
    · intro E n' k hn' hor
      simp only
      rw [hpk _ n' k hn' hor, hk _ _ _ _ hn' (hor.imp_right (List.mem_cons_of_mem _))]
    · intro E
      simp only [Guesser.says, if_true, Bool.false_eq_true, if_false]
      rw [he, he']
      simp only
      rw [← hs (c E) E]
      refine says_congr true (next (c E)) (n :: used) (h6 _) (hpz _) fun n' k hn' hor => patch_other fun i hi heq => ?_
      obtain ⟨e1, e2⟩ := input_inj h1 hn' heq
      rcases hor with rfl | hor
      · exact (counter_ne h4 hi).2 e2
      · exact hor (e1 ▸ List.mem_cons_self)

end Abe.Gcm

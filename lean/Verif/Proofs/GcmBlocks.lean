import Verif.Proofs.GcmSecrecy
import Verif.Props.AesGcm

/-!
# Blocks of the repository and GCM: lemmas
-/

namespace Abe

open Gcm

variable {shake : Bytes → Nat → Bytes} {metaEnc : Metadata → Out Bytes} {metaDec : Bytes → Out Metadata} {num : Nat → Bytes} {max : Nat}

theorem blockForger_proper (hmax : max ≤ maxClear) (hn : ∀ i, (num i).length = 8) {L : Nat} (B : BlockForger AesNonce) {v v' : Nat} {used : List AesNonce}
    {used' : List Bytes} (hp : B.Proper L v used) (hv : v ≤ v') (hu : ∀ n ∈ used', ∃ x ∈ used, x.val = n) : (B.forger max num).Proper L v' used' := by
  induction B generalizing v v' used used' with
  | stop => trivial
  | ask uid i p n next ih =>
    obtain ⟨h1, h2, h3, h4, h5⟩ := hp
    rw [BlockForger.forger]
    split
    · refine ih none (h5 none) hv fun n' hn' => ?_
      obtain ⟨x, hx, he⟩ := hu n' hn'
      exact ⟨x, List.mem_cons_of_mem _ hx, he⟩
    · refine ⟨n.2, ?_, by omega, by rw [List.length_append, hn]; exact h2, ?_, fun c => ih _ (h5 _) hv fun n' hn' => ?_⟩
      · intro h
        obtain ⟨x, hx, he⟩ := hu _ h
        exact h1 (Subtype.ext he ▸ hx)
      · rw [units, units, List.length_append, hn]
        exact h4
      · rcases List.mem_cons.1 hn' with rfl | hn'
        · exact ⟨n, List.mem_cons_self, rfl⟩
        · obtain ⟨x, hx, he⟩ := hu n' hn'
          exact ⟨x, List.mem_cons_of_mem _ hx, he⟩
  | submit uid i c next ih =>
    obtain ⟨h1, h2, h3, h4, h5⟩ := hp
    rw [BlockForger.forger]
    split
    · exact ih none (h5 none) (by omega) hu
    · refine ⟨by rw [List.length_take]; omega, ?_, by omega, fun m => ih _ (h5 _) (by omega) hu⟩
      rw [units, units, List.length_append, hn, List.length_take, List.length_drop, show min (c.length - 12 - 16) (c.length - 12) = c.length - 28 by omega]
      exact h3

theorem encryptBlock_eq (hmax : max ≤ maxClear) (hn : ∀ i, (num i).length = 8) (k : AesKey) {uid : Bytes} (hu : uid.length + 8 ≤ limit) (i : Nat) (p : Bytes) (n : AesNonce) :
    (p = [] ∨ max < p.length → ∃ e, encryptHybridBlock (aesGcm shake metaEnc metaDec num) max k uid i p n = .err e) ∧
    (¬ (p = [] ∨ max < p.length) → ∃ c, Gcm.encrypt (Aes.aes256 k.val) n.val (uid ++ num i) p = .ok c ∧
      encryptHybridBlock (aesGcm shake metaEnc metaDec num) max k uid i p n = .ok (n.val ++ c)) := by
  constructor
  · rintro (rfl | h)
    · exact ⟨_, rfl⟩
    · unfold encryptHybridBlock
      split
      · exact ⟨_, rfl⟩
      · exact ⟨_, rfl⟩
  · intro h
    push Not at h
    have hl : max ≤ limit := by unfold limit; unfold maxClear at hmax; omega
    have hc : Gcm.encrypt (Aes.aes256 k.val) n.val (uid ++ num i) p = .ok (ctr (Aes.aes256 k.val) n.val p ++ tag (Aes.aes256 k.val) n.val (uid ++ num i) (ctr (Aes.aes256 k.val) n.val p)) :=
      encrypt_eq_ok.2 ⟨by omega, by rw [List.length_append, hn]; exact hu, rfl⟩
    exact ⟨_, hc, ((C101_layout hl hn k hu i p _).1 n).2 ⟨h.1, h.2, rfl⟩⟩

theorem decryptBlock_eq (k : AesKey) (uid : Bytes) (i : Nat) (c : Bytes) :
    (c.length < 28 ∨ max + 28 < c.length → ∃ e, decryptHybridBlock (aesGcm shake metaEnc metaDec num) max k uid i c = .err e) ∧
    (¬ (c.length < 28 ∨ max + 28 < c.length) →
      decryptHybridBlock (aesGcm shake metaEnc metaDec num) max k uid i c = Gcm.decrypt (Aes.aes256 k.val) (c.take 12) (uid ++ num i) (c.drop 12)) := by
  constructor
  · intro h
    unfold decryptHybridBlock
    split
    · exact ⟨_, rfl⟩
    · split
      · exact ⟨_, rfl⟩
      · refine ⟨.cryptoError, ?_⟩
        simp only [aesGcm]
        rw [if_pos h.symm]
  · intro h
    unfold decryptHybridBlock
    rw [if_neg, if_neg, aesGcm_blockDec _ _ _ (by omega) (by omega)]
    · change ¬ c.length > max + 28
      omega
    · intro he
      rw [List.isEmpty_iff.1 he] at h
      simp at h

/-- An entry of a block. -/
def blockEntry (num : Nat → Bytes) (x : Bytes × Nat × Bytes) : Entry := (x.2.2.take 12, x.1 ++ num x.2.1, x.2.2.drop 12)

theorem blockEntry_inj (hn : ∀ i, (num i).length = 8) (hi : ∀ i < 2 ^ 64, ∀ j < 2 ^ 64, num i = num j → i = j) {x y : Bytes × Nat × Bytes} (hx : x.2.1 < 2 ^ 64)
    (hy : y.2.1 < 2 ^ 64) (h : blockEntry num x = blockEntry num y) : x = y := by
  obtain ⟨u, i, c⟩ := x
  obtain ⟨u', i', c'⟩ := y
  simp only [blockEntry, Prod.mk.injEq] at h
  obtain ⟨h1, h2, h3⟩ := h
  obtain ⟨h4, h5⟩ := List.append_inj' h2 (by rw [hn, hn])
  rw [h4, hi i hx i' hy h5, ← List.take_append_drop 12 c, h1, h3, List.take_append_drop]

theorem blockForger_wins (hmax : max ≤ maxClear) (hn : ∀ i, (num i).length = 8) (hi : ∀ i < 2 ^ 64, ∀ j < 2 ^ 64, num i = num j → i = j) {L : Nat} (k : AesKey)
    (B : BlockForger AesNonce) {v : Nat} {used : List AesNonce} (hp : B.Proper L v used) {seen : List (Bytes × Nat × Bytes)} (hs : ∀ x ∈ seen, x.2.1 < 2 ^ 64) :
    B.Wins (aesGcm shake metaEnc metaDec num) max k seen ↔ (B.forger max num).Wins (Aes.aes256 k.val) (seen.map (blockEntry num)) := by
  induction B generalizing v used seen with
  | stop => rfl
  | ask uid i p n next ih =>
    obtain ⟨h1, h2, h3, h4, h5⟩ := hp
    rw [BlockForger.Wins, BlockForger.forger]
    have he := encryptBlock_eq (shake := shake) (metaEnc := metaEnc) (metaDec := metaDec) hmax hn k h2 i p n
    by_cases hc : p = [] ∨ max < p.length
    · obtain ⟨e, he⟩ := he.1 hc
      rw [he, if_pos hc]
      exact ih none (h5 none) hs
    · obtain ⟨c, hc1, hc2⟩ := he.2 hc
      rw [hc2, if_neg hc, Gcm.Forger.Wins, hc1]
      have := ih (some (n.val ++ c)) (h5 _) (seen := (uid, i, n.val ++ c) :: seen) (by
        intro x hx
        rcases List.mem_cons.1 hx with rfl | hx
        · exact h3
        · exact hs x hx)
      simp only
      rw [this, List.map_cons]
      simp only [blockEntry]
      rw [List.take_left' n.2, List.drop_left' n.2]
  | submit uid i c next ih =>
    obtain ⟨h1, h2, h3, h4, h5⟩ := hp
    rw [BlockForger.Wins, BlockForger.forger]
    have he := decryptBlock_eq (shake := shake) (metaEnc := metaEnc) (metaDec := metaDec) (num := num) (max := max) k uid i c
    by_cases hc : c.length < 28 ∨ max + 28 < c.length
    · obtain ⟨e, he⟩ := he.1 hc
      rw [he, if_pos hc]
      exact ih none (h5 none) hs
    · rw [he.2 hc, if_neg hc, Gcm.Forger.Wins]
      cases hd : Gcm.decrypt (Aes.aes256 k.val) (c.take 12) (uid ++ num i) (c.drop 12) with
      | ok m =>
        simp only
        rw [ih (some m) (h5 _) hs]
        refine or_congr_left (not_congr ?_)
        constructor
        · intro h
          exact List.mem_map.2 ⟨_, h, rfl⟩
        · intro h
          obtain ⟨x, hx, he⟩ := List.mem_map.1 h
          exact blockEntry_inj hn hi (hs x hx) h2 (y := (uid, i, c)) he ▸ hx
      | err e => exact ih none (h5 none) hs
      | panic => exact ih none (h5 none) hs

theorem blockGuesser_proper (hmax : max ≤ maxClear) (hn : ∀ i, (num i).length = 8) (B : BlockGuesser AesNonce) {used : List AesNonce} {used' : List Bytes}
    (hp : B.Proper used) (hu : ∀ n ∈ used', ∃ x ∈ used, x.val = n) : (B.guesser max num).Proper used' := by
  induction B generalizing used used' with
  | guess b => trivial
  | ask uid i p₀ p₁ n next ih =>
    obtain ⟨h1, h2, h3, h4⟩ := hp
    rw [BlockGuesser.guesser]
    split
    · refine ih none (h4 none) fun n' hn' => ?_
      obtain ⟨x, hx, he⟩ := hu n' hn'
      exact ⟨x, List.mem_cons_of_mem _ hx, he⟩
    · refine ⟨n.2, ?_, h2, by omega, by rw [List.length_append, hn]; exact h3, fun c => ih _ (h4 _) fun n' hn' => ?_⟩
      · intro h
        obtain ⟨x, hx, he⟩ := hu _ h
        exact h1 (Subtype.ext he ▸ hx)
      · rcases List.mem_cons.1 hn' with rfl | hn'
        · exact ⟨n, List.mem_cons_self, rfl⟩
        · obtain ⟨x, hx, he⟩ := hu n' hn'
          exact ⟨x, List.mem_cons_of_mem _ hx, he⟩

theorem blockGuesser_says (hmax : max ≤ maxClear) (hn : ∀ i, (num i).length = 8) (k : AesKey) (side : Bool) (B : BlockGuesser AesNonce) {used : List AesNonce}
    (hp : B.Proper used) : (B.guesser max num).says (Aes.aes256 k.val) side = some (B.says (aesGcm shake metaEnc metaDec num) max k side) := by
  induction B generalizing used with
  | guess b => rfl
  | ask uid i p₀ p₁ n next ih =>
    obtain ⟨h1, h2, h3, h4⟩ := hp
    rw [BlockGuesser.says, BlockGuesser.guesser]
    have he := encryptBlock_eq (shake := shake) (metaEnc := metaEnc) (metaDec := metaDec) hmax hn k h3 i (if side then p₁ else p₀) n
    have hiff : (if side then p₁ else p₀) = [] ∨ max < (if side then p₁ else p₀).length ↔ p₀ = [] ∨ max < p₀.length := by
      cases side
      · rfl
      · simp only [if_true]
        rw [h2, ← List.length_eq_zero_iff, ← List.length_eq_zero_iff, h2]
    by_cases hc : p₀ = [] ∨ max < p₀.length
    · obtain ⟨e, he⟩ := he.1 (hiff.2 hc)
      rw [he, if_pos hc]
      exact ih none (h4 none)
    · obtain ⟨c, hc1, hc2⟩ := he.2 (mt hiff.1 hc)
      rw [hc2, if_neg hc, Gcm.Guesser.says, hc1]
      exact ih _ (h4 _)

end Abe

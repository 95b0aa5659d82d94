import Verif.Props.FfiFlow
import Verif.Proofs.FfiThreads

set_option linter.unusedSectionVars false
set_option linter.unusedSimpArgs false

/-!
# Histories of calls of the C interface by several threads: C44, C45, C46 and C48
-/

namespace Abe
open Prog

section
variable {K G1 G2 G3 Gt Key Nonce : Type} [Field K] [DecidableEq K] {lib : FfiLib K G1 G2 G3 Gt Key Nonce}

theorem mem_first {α : Type} {a : α} {l : List α} (h : a ∈ l) : ∃ x y, l = x ++ a :: y ∧ a ∉ x := by
  classical
  induction l with
  | nil => simp at h
  | cons b l ih =>
    by_cases hb : a = b
    · exact ⟨[], l, by rw [hb]; rfl, by simp⟩
    · obtain ⟨x, y, rfl, hx⟩ := ih ((List.mem_cons.1 h).resolve_left hb)
      exact ⟨b :: x, y, rfl, by simp [hb, hx]⟩

/-! ### Encryption caches -/

/-- After the end of a creation, the handle designates the cache, and no creation under way has its identifier. -/
theorem created_enc {L1 L2 : List (Thread × FEvent K Gt Nonce)} {τ : Thread} {a : EncCacheArgs} {m : CMem} {h : Int32}
    (hc : CreatesHandle lib L1 τ (.createEncryptionCache a) m L2 h)
    (hn : draws (encActs lib Sys.init (untilCreated L1 τ (.createEncryptionCache a) m L2)) ≤ 2 ^ 32) :
    ∃ c, a.Decodes lib c ∧
      (frun lib Sys.init (untilCreated L1 τ (.createEncryptionCache a) m L2)).enc.get h = some c ∧
      (frun lib Sys.init (untilCreated L1 τ (.createEncryptionCache a) m L2)).encView.Free h ∧
      ∃ i, i < draws (encActs lib Sys.init (untilCreated L1 τ (.createEncryptionCache a) m L2)) ∧ h = Int32.ofNat i := by
  obtain ⟨c, h1, h2, h3, h4⟩ := createsEnc hc
  have hinv := (inv_init_enc (K := K) (G1 := G1) (G3 := G3)).acts (encActs lib Sys.init (L1 ++ (τ, .call (.createEncryptionCache a) m) :: L2))
  rw [Nat.zero_add] at hinv
  unfold untilCreated at hn ⊢
  rw [encActs_append, draws_append] at hn
  have hinv := hinv (by omega)
  rw [← encActs_run] at hinv
  have hview : (frun lib Sys.init (L1 ++ (τ, .call (.createEncryptionCache a) m) :: L2 ++ [(τ, .finish)])).encView =
      ⟨(frun lib Sys.init (L1 ++ (τ, .call (.createEncryptionCache a) m) :: L2)).enc.insert h c,
        Sys.upd (frun lib Sys.init (L1 ++ (τ, .call (.createEncryptionCache a) m) :: L2)).pendEnc τ none⟩ := by
    rw [frun_append]
    simp only [frun]
    rw [encAct_step]
    simp only [encAct, RState.act, Sys.encView, h4]
  refine ⟨c, h1, ?_, ?_, draws (encActs lib Sys.init L1), ?_, h3⟩
  · have : (frun lib Sys.init (L1 ++ (τ, .call (.createEncryptionCache a) m) :: L2 ++ [(τ, .finish)])).enc =
      (frun lib Sys.init (L1 ++ (τ, .call (.createEncryptionCache a) m) :: L2 ++ [(τ, .finish)])).encView.reg := rfl
    rw [this, hview]
    exact registry_get_insert _ _ _
  · rw [hview]
    intro τ' p' hp'
    simp only [Sys.upd] at hp'
    split at hp'
    · cases hp'
    · rename_i hne
      exact hinv.distinct τ' τ p' ⟨h, c, m⟩ hp' h4 hne
  · rw [encActs_append, draws_append, encActs_append, draws_append]
    simp only [encActs]
    rw [h2]
    simp only [draws]
    omega

/-- **C44**, encryption caches: in every history with at most `2 ^ 32` creations, by any number of threads and in any order, a handle
designates the cache made from the arguments of its creation until it is destroyed. -/
theorem C44_encryption {L : List (Thread × FEvent K Gt Nonce)} {h : Int32} {a : EncCacheArgs} (hL : encCreations L ≤ 2 ^ 32)
    (hl : EncHandle lib L h a) : ∃ c, a.Decodes lib c ∧ (frun lib Sys.init L).enc.get h = some c := by
  obtain ⟨L1, τ, m, L2, L3, rfl, hc, hk⟩ := hl
  have hd := encActs_draws (lib := lib) Sys.init (untilCreated L1 τ (.createEncryptionCache a) m L2 ++ L3)
  rw [encActs_append, draws_append] at hd
  obtain ⟨c, h1, h2, h3, i, h4, h5⟩ := created_enc hc (by omega)
  refine ⟨c, h1, ?_⟩
  have hinv := (inv_init_enc (K := K) (G1 := G1) (G3 := G3)).acts (encActs lib Sys.init (untilCreated L1 τ (.createEncryptionCache a) m L2))
  rw [Nat.zero_add, ← encActs_run] at hinv
  have := acts_get h4 h5 (hinv (by omega)) h2 h3 (encActs lib (frun lib Sys.init (untilCreated L1 τ (.createEncryptionCache a) m L2)) L3)
    (by omega) (encActs_remove_iff.2 hk)
  rw [← encActs_run, ← frun_append] at this
  exact this

/-- **C44**, encryption caches: in such a history, two creations have different handles. -/
theorem C44_encryption_distinct {L : List (Thread × FEvent K Gt Nonce)} (hL : encCreations L ≤ 2 ^ 32)
    {L1 L2 L3 L1' L2' L3' : List (Thread × FEvent K Gt Nonce)} {τ τ' : Thread} {a a' : EncCacheArgs} {m m' : CMem} {h h' : Int32}
    (e : L = untilCreated L1 τ (.createEncryptionCache a) m L2 ++ L3)
    (e' : L = untilCreated L1' τ' (.createEncryptionCache a') m' L2' ++ L3')
    (hc : CreatesHandle lib L1 τ (.createEncryptionCache a) m L2 h) (hc' : CreatesHandle lib L1' τ' (.createEncryptionCache a') m' L2' h')
    (hne : L1.length ≠ L1'.length) : h ≠ h' := by
  have key : ∀ {L1 L2 L3 L1' L2' L3' : List (Thread × FEvent K Gt Nonce)} {τ τ' : Thread} {a a' : EncCacheArgs} {m m' : CMem} {h h' : Int32},
      L = untilCreated L1 τ (.createEncryptionCache a) m L2 ++ L3 → L = untilCreated L1' τ' (.createEncryptionCache a') m' L2' ++ L3' →
      CreatesHandle lib L1 τ (.createEncryptionCache a) m L2 h → CreatesHandle lib L1' τ' (.createEncryptionCache a') m' L2' h' →
      L1.length < L1'.length → h ≠ h' := by
    intro L1 L2 L3 L1' L2' L3' τ τ' a a' m m' h h' e e' hc hc' hlt
    obtain ⟨c, _, h2, h3, _⟩ := createsEnc hc
    obtain ⟨c', _, h2', h3', _⟩ := createsEnc hc'
    have hp : L1 ++ [(τ, .call (.createEncryptionCache a) m)] <+: L1' := by
      refine List.prefix_of_prefix_length_le (l₃ := L) ⟨L2 ++ [(τ, .finish)] ++ L3, by rw [e]; simp [untilCreated]⟩
        ⟨(τ', .call (.createEncryptionCache a') m') :: L2' ++ [(τ', .finish)] ++ L3', by rw [e']; simp [untilCreated]⟩ (by simp; omega)
    obtain ⟨R, hR⟩ := hp
    have hd := encActs_draws (lib := lib) Sys.init L
    have e'' : L = L1' ++ (τ', .call (.createEncryptionCache a') m') :: (L2' ++ [(τ', .finish)] ++ L3') := by rw [e']; simp [untilCreated]
    rw [e'', encActs_append, draws_append] at hd
    simp only [encActs, h2', draws] at hd
    rw [← e''] at hd
    have hlt' : draws (encActs lib Sys.init L1) < draws (encActs lib Sys.init L1') := by
      rw [← hR, encActs_append, draws_append, encActs_append, draws_append]
      simp only [encActs, h2, draws]
      omega
    rw [h3, h3']
    intro he
    have := int32_ofNat_inj (by omega) (by omega) he
    omega
  rcases Nat.lt_or_ge L1.length L1'.length with hlt | hge
  · exact key e e' hc hc' hlt
  · exact (key e' e hc' hc (by omega)).symm

/-- The creation of `n` caches by a thread. -/
def creations (τ : Thread) (c : FCall K Gt Nonce) (m : CMem) : Nat → List (Thread × FEvent K Gt Nonce)
  | 0 => []
  | n + 1 => creations τ c m n ++ [(τ, .call c m), (τ, .finish)]

theorem mem_creations {τ : Thread} {c : FCall K Gt Nonce} {m : CMem} {n : Nat} {x : Thread × FEvent K Gt Nonce}
    (h : x ∈ creations τ c m n) : x = (τ, .call c m) ∨ x = (τ, .finish) := by
  induction n with
  | zero => simp [creations] at h
  | succ n ih =>
    simp only [creations, List.mem_append, List.mem_cons, List.not_mem_nil, or_false] at h
    exact h.elim ih id

/-- A thread creating a cache alone, without interference. -/
theorem round_enc {s : Sys (EncryptionCache G2 Gt) (DecryptionKey K G1 G3)} {τ : Thread} (hi : s.Idle τ) {a : EncCacheArgs} {c : EncryptionCache G2 Gt}
    (hc : a.Decodes lib c) {m : CMem} (hm : m.handle ≠ none) :
    (fstep lib s τ (.call (.createEncryptionCache a) m)).2 = none ∧
    (fstep lib (fstep lib s τ (.call (.createEncryptionCache a) m)).1 τ .finish).2 = some (.ret 0, { m with handle := some s.enc.next }) ∧
    (fstep lib (fstep lib s τ (.call (.createEncryptionCache a) m)).1 τ .finish).1.Idle τ ∧
    (fstep lib (fstep lib s τ (.call (.createEncryptionCache a) m)).1 τ .finish).1.enc = ⟨s.enc.next + 1, hinsert s.enc.map s.enc.next c⟩ := by
  obtain ⟨x, hx⟩ := Option.ne_none_iff_exists'.1 hm
  rw [fstep_createEnc _ _ _ _ hi, prepareEncryptionCache_iff.2 hc]
  simp [startCreation, Prog.pure_def, Prog.pure, fstep, Sys.back, upd_self, hi.1, Sys.view, Prog.run, writeHandle, hx, finish, Sys.Idle,
    Registry.fetchAdd, Registry.insert, hi.2]

theorem creations_enc {τ : Thread} {a : EncCacheArgs} {c : EncryptionCache G2 Gt} (hc : a.Decodes lib c) {m : CMem} (hm : m.handle ≠ none) (n : Nat)
    {s : Sys (EncryptionCache G2 Gt) (DecryptionKey K G1 G3)} (hi : s.Idle τ) :
    (frun lib s (creations τ (.createEncryptionCache a) m n)).Idle τ ∧
    (frun lib s (creations τ (.createEncryptionCache a) m n)).enc.next = s.enc.next + Int32.ofNat n ∧
    (n ≠ 0 → (frun lib s (creations τ (.createEncryptionCache a) m n)).enc.get (s.enc.next + Int32.ofNat (n - 1)) = some c) := by
  induction n with
  | zero => exact ⟨hi, by simp [creations, frun], fun h => absurd rfl h⟩
  | succ n ih =>
    obtain ⟨h1, h2, _⟩ := ih
    obtain ⟨_, _, h4, h5⟩ := round_enc h1 hc hm
    simp only [creations, frun_append, frun]
    refine ⟨h4, ?_, fun _ => ?_⟩
    · rw [h5, h2]
      show _ + _ + Int32.ofNat 1 = _
      rw [Int32.add_assoc, int32_ofNat_add n 1]
    · rw [h5, h2]
      show hget _ _ = _
      rw [hget_hinsert, Nat.add_sub_cancel, if_pos rfl]

theorem encCreations_creations (τ : Thread) (a : EncCacheArgs) (m : CMem) (n : Nat) :
    encCreations (creations τ (.createEncryptionCache a) m n : List (Thread × FEvent K Gt Nonce)) = n := by
  induction n with
  | zero => rfl
  | succ n ih =>
    simp only [creations]
    rw [encCreations_append, ih]
    rfl

/-- **C44**, encryption caches, why the number of creations is bounded: after `2 ^ 32` more creations, a handle which has not been destroyed
designates another cache. -/
theorem C44_encryption_overwritten {a1 a2 : EncCacheArgs} {c1 c2 : EncryptionCache G2 Gt} (h1 : a1.Decodes lib c1) (h2 : a2.Decodes lib c2) (τ : Thread)
    {m : CMem} (hm : m.handle ≠ none) :
    ∃ (L : List (Thread × FEvent K Gt Nonce)) (h : Int32), encCreations L = 2 ^ 32 + 1 ∧ EncHandle lib L h a1 ∧
      (frun lib Sys.init L).enc.get h = some c2 := by
  obtain ⟨g1, g2, g3, g4⟩ := round_enc (lib := lib) (s := Sys.init) (τ := τ) ⟨rfl, rfl⟩ h1 hm
  refine ⟨untilCreated [] τ (.createEncryptionCache a1) m [] ++ creations τ (.createEncryptionCache a2) m (2 ^ 32), 0, ?_,
    ⟨[], τ, m, [], _, rfl, ⟨⟨rfl, rfl⟩, g1, by simp, _, g2, rfl⟩, fun Ld τ' m' Le he => ?_⟩, ?_⟩
  · rw [encCreations_append, encCreations_creations]
    simp only [untilCreated, List.nil_append, List.cons_append, encCreations]
    omega
  · refine absurd (mem_creations (x := (τ', FEvent.call (.destroyEncryptionCache 0) m')) (by rw [he]; simp)) ?_
    simp
  · have hN : (2 ^ 32 : Nat) ≠ 0 := by decide
    have := (creations_enc (lib := lib) (τ := τ) h2 hm (2 ^ 32) g3).2.2 hN
    rw [g4] at this
    rw [frun_append]
    refine (congrArg _ ?_).trans this
    show (0 : Int32) = 0 + 1 + Int32.ofNat (2 ^ 32 - 1)
    decide +kernel

/-- **C45**, encryption caches: a handle which designates something has been given by a creation, from whose arguments the cache was made,
and has not been destroyed since. -/
theorem C45_encryption {L : List (Thread × FEvent K Gt Nonce)} (hw : HandlesWanted L) {h : Int32} {c : EncryptionCache G2 Gt}
    (hg : (frun lib Sys.init L).enc.get h = some c) : ∃ a, EncHandle lib L h a ∧ a.Decodes lib c := by
  have hg' : ((Sys.init : Sys (EncryptionCache G2 Gt) (DecryptionKey K G1 G3)).encView.acts (encActs lib Sys.init L)).reg.get h = some c := by
    rw [← encActs_run]; exact hg
  obtain ⟨l1, τ, l2, p, h1, h2, h3, h4, h5⟩ := acts_live hg' rfl
  obtain ⟨L12, τ', ev, L3, rfl, h6, h7, h8⟩ := encActs_split h1
  have hfin : τ = τ' ∧ ev = .finish := by
    have := encAct_commit h7
    exact ⟨this.1, this.2⟩
  obtain ⟨rfl, rfl⟩ := hfin
  rw [← h6] at h2
  have hpend : (frun lib Sys.init L12).pendEnc τ = some p := by
    rw [← encActs_run] at h2; exact h2
  obtain ⟨m1, m2, g1, g2, g3⟩ := acts_pend h2 rfl
  obtain ⟨L1, τ'', ev, L2, rfl, g4, g5, g6⟩ := encActs_split g1
  obtain ⟨rfl, g7, a, rfl, g8⟩ := encAct_draw g5
  have hfin : (τ, FEvent.finish) ∉ L2 := by
    intro hm
    apply g3
    rw [← g6]
    obtain ⟨x, y, rfl⟩ := List.append_of_mem hm
    rw [encActs_append]
    simp [encActs, encAct]
  have hm : p.mem.handle ≠ none := hw.1 τ a p.mem (by simp)
  have hcreate : CreatesHandle lib L1 τ (.createEncryptionCache a) p.mem L2 h := by
    refine ⟨g7, ?_, hfin, ?_⟩
    · rw [fstep_createEnc _ τ a p.mem g7, prepareEncryptionCache_iff.2 g8]
      rfl
    · simp only [fstep, hpend]
      cases hh : p.mem.handle with
      | none => exact absurd hh hm
      | some x =>
        refine ⟨{ p.mem with handle := some h }, ?_, rfl⟩
        rw [← h3]
        simp only [Prog.run, writeHandle, Sys.view, hh, finish]
  rw [h4] at g8
  refine ⟨a, ⟨L1, τ, p.mem, L2, L3, by simp [untilCreated], hcreate, ?_⟩, g8⟩
  rw [← encActs_remove_iff]
  unfold untilCreated
  rw [h8]
  exact h5

/-- **C45**, encryption caches: after a history where the handle was never given, or was destroyed since, a call with it fails with an error
and writes nothing. -/
theorem C45_encryption_refused {L : List (Thread × FEvent K Gt Nonce)} (hw : HandlesWanted L) {h : Int32}
    (hn : ∀ a, ¬ EncHandle lib L h a) {τ : Thread} (hi : (frun lib Sys.init L).Idle τ) {m : CMem} (hl : m.LengthsGiven) (x : EncHeaderArgs K Gt Nonce) :
    ∃ e, fstep lib (frun lib Sys.init L) τ (.call (.encryptHeaderUsingCache h x) m) =
      ({ frun lib Sys.init L with err := Sys.upd (frun lib Sys.init L).err τ (some e) }, some (.ret 1, m)) := by
  have hg : (frun lib Sys.init L).enc.get h = none := by
    cases hg : (frun lib Sys.init L).enc.get h with
    | none => rfl
    | some c =>
      obtain ⟨a, ha, _⟩ := C45_encryption hw hg
      exact absurd ha (hn a)
  rw [fstep_other _ τ _ m hi (by simp) (by simp)]
  obtain ⟨e, he⟩ := C45_unknown_encryption_handle (lib := lib) (s := (frun lib Sys.init L).view τ m) hg hl x
  simp only [FCall.prog]
  rw [he]
  exact ⟨e, rfl⟩

/-- **C45**: destroying an encryption cache returns 0, whatever the handle; the handle designates nothing afterwards, and nothing else
changes. -/
theorem C45_encryption_destroy (s : Sys (EncryptionCache G2 Gt) (DecryptionKey K G1 G3)) {τ : Thread} (hi : s.Idle τ) (h : Int32) (m : CMem) :
    let r := fstep lib s τ (.call (.destroyEncryptionCache h : FCall K Gt Nonce) m)
    r.2 = some (.ret 0, m) ∧ r.1.enc.get h = none ∧ (∀ h', h' ≠ h → r.1.enc.get h' = s.enc.get h') ∧ r.1.dec = s.dec ∧ r.1.err = s.err := by
  intro r
  have hr : r = _ := fstep_other s τ _ m hi (by simp) (by simp)
  rw [hr]
  refine ⟨rfl, ?_, fun h' hne => ?_, rfl, ?_⟩
  · show hget (hremove s.enc.map h) h = none
    rw [hget_hremove, if_pos rfl]
  · show hget (hremove s.enc.map h) h' = hget s.enc.map h'
    rw [hget_hremove, if_neg hne]
  · funext τ'
    show Sys.upd s.err τ (s.err τ) τ' = s.err τ'
    simp only [Sys.upd]
    split
    · rename_i h; rw [h]
    · rfl

/-- **C46**, encryption, in histories: a call with a handle has the same reply and the same effect as the call without cache. -/
theorem C46_encryption_history {L : List (Thread × FEvent K Gt Nonce)} {h : Int32} {a : EncCacheArgs} (hL : encCreations L ≤ 2 ^ 32)
    (hl : EncHandle lib L h a) {τ : Thread} (hi : (frun lib Sys.init L).Idle τ) (m : CMem) (x : EncHeaderArgs K Gt Nonce) :
    fstep lib (frun lib Sys.init L) τ (.call (.encryptHeaderUsingCache h x) m) = fstep lib (frun lib Sys.init L) τ (.call (.encryptHeader a x) m) := by
  obtain ⟨c, h1, h2⟩ := C44_encryption hL hl
  rw [fstep_other _ τ _ m hi (by simp) (by simp), fstep_other _ τ _ m hi (by simp) (by simp)]
  simp only [FCall.prog]
  rw [C46_encryption h1 (s := (frun lib Sys.init L).view τ m) h2 x]

/-! ### Decryption caches -/

/-- After the end of a creation, the handle designates the cache, and no creation under way has its identifier. -/
theorem created_dec {L1 L2 : List (Thread × FEvent K Gt Nonce)} {τ : Thread} {a : InBuf} {m : CMem} {h : Int32}
    (hc : CreatesHandle lib L1 τ (.createDecryptionCache a) m L2 h)
    (hn : draws (decActs lib Sys.init (untilCreated L1 τ (.createDecryptionCache a) m L2)) ≤ 2 ^ 32) :
    ∃ c, KeyDecodes lib a c ∧
      (frun lib Sys.init (untilCreated L1 τ (.createDecryptionCache a) m L2)).dec.get h = some c ∧
      (frun lib Sys.init (untilCreated L1 τ (.createDecryptionCache a) m L2)).decView.Free h ∧
      ∃ i, i < draws (decActs lib Sys.init (untilCreated L1 τ (.createDecryptionCache a) m L2)) ∧ h = Int32.ofNat i := by
  obtain ⟨c, h1, h2, h3, h4, hpe⟩ := createsDec hc
  have hinv := (inv_init_dec (G2 := G2) (Gt := Gt)).acts (decActs lib Sys.init (L1 ++ (τ, .call (.createDecryptionCache a) m) :: L2))
  rw [Nat.zero_add] at hinv
  unfold untilCreated at hn ⊢
  rw [decActs_append, draws_append] at hn
  have hinv := hinv (by omega)
  rw [← decActs_run] at hinv
  have hview : (frun lib Sys.init (L1 ++ (τ, .call (.createDecryptionCache a) m) :: L2 ++ [(τ, .finish)])).decView =
      ⟨(frun lib Sys.init (L1 ++ (τ, .call (.createDecryptionCache a) m) :: L2)).dec.insert h c,
        Sys.upd (frun lib Sys.init (L1 ++ (τ, .call (.createDecryptionCache a) m) :: L2)).pendDec τ none⟩ := by
    rw [frun_append]
    simp only [frun]
    rw [decAct_step]
    simp only [decAct, hpe, Option.isSome_none, Bool.false_eq_true, if_false, RState.act, Sys.decView, h4]
  refine ⟨c, h1, ?_, ?_, draws (decActs lib Sys.init L1), ?_, h3⟩
  · have : (frun lib Sys.init (L1 ++ (τ, .call (.createDecryptionCache a) m) :: L2 ++ [(τ, .finish)])).dec =
      (frun lib Sys.init (L1 ++ (τ, .call (.createDecryptionCache a) m) :: L2 ++ [(τ, .finish)])).decView.reg := rfl
    rw [this, hview]
    exact registry_get_insert _ _ _
  · rw [hview]
    intro τ' p' hp'
    simp only [Sys.upd] at hp'
    split at hp'
    · cases hp'
    · rename_i hne
      exact hinv.distinct τ' τ p' ⟨h, c, m⟩ hp' h4 hne
  · rw [decActs_append, draws_append, decActs_append, draws_append]
    simp only [decActs]
    rw [h2]
    simp only [draws]
    omega

/-- **C44**, decryption caches: in every history with at most `2 ^ 32` creations, by any number of threads and in any order, a handle
designates the cache made from the arguments of its creation until it is destroyed. -/
theorem C44_decryption {L : List (Thread × FEvent K Gt Nonce)} {h : Int32} {a : InBuf} (hL : decCreations L ≤ 2 ^ 32)
    (hl : DecHandle lib L h a) : ∃ c, KeyDecodes lib a c ∧ (frun lib Sys.init L).dec.get h = some c := by
  obtain ⟨L1, τ, m, L2, L3, rfl, hc, hk⟩ := hl
  have hd := decActs_draws (lib := lib) Sys.init (untilCreated L1 τ (.createDecryptionCache a) m L2 ++ L3)
  rw [decActs_append, draws_append] at hd
  obtain ⟨c, h1, h2, h3, i, h4, h5⟩ := created_dec hc (by omega)
  refine ⟨c, h1, ?_⟩
  have hinv := (inv_init_dec (G2 := G2) (Gt := Gt)).acts (decActs lib Sys.init (untilCreated L1 τ (.createDecryptionCache a) m L2))
  rw [Nat.zero_add, ← decActs_run] at hinv
  have := acts_get h4 h5 (hinv (by omega)) h2 h3 (decActs lib (frun lib Sys.init (untilCreated L1 τ (.createDecryptionCache a) m L2)) L3)
    (by omega) (decActs_remove_iff.2 hk)
  rw [← decActs_run, ← frun_append] at this
  exact this

/-- **C44**, decryption caches: in such a history, two creations have different handles. -/
theorem C44_decryption_distinct {L : List (Thread × FEvent K Gt Nonce)} (hL : decCreations L ≤ 2 ^ 32)
    {L1 L2 L3 L1' L2' L3' : List (Thread × FEvent K Gt Nonce)} {τ τ' : Thread} {a a' : InBuf} {m m' : CMem} {h h' : Int32}
    (e : L = untilCreated L1 τ (.createDecryptionCache a) m L2 ++ L3)
    (e' : L = untilCreated L1' τ' (.createDecryptionCache a') m' L2' ++ L3')
    (hc : CreatesHandle lib L1 τ (.createDecryptionCache a) m L2 h) (hc' : CreatesHandle lib L1' τ' (.createDecryptionCache a') m' L2' h')
    (hne : L1.length ≠ L1'.length) : h ≠ h' := by
  have key : ∀ {L1 L2 L3 L1' L2' L3' : List (Thread × FEvent K Gt Nonce)} {τ τ' : Thread} {a a' : InBuf} {m m' : CMem} {h h' : Int32},
      L = untilCreated L1 τ (.createDecryptionCache a) m L2 ++ L3 → L = untilCreated L1' τ' (.createDecryptionCache a') m' L2' ++ L3' →
      CreatesHandle lib L1 τ (.createDecryptionCache a) m L2 h → CreatesHandle lib L1' τ' (.createDecryptionCache a') m' L2' h' →
      L1.length < L1'.length → h ≠ h' := by
    intro L1 L2 L3 L1' L2' L3' τ τ' a a' m m' h h' e e' hc hc' hlt
    obtain ⟨c, _, h2, h3, _, _⟩ := createsDec hc
    obtain ⟨c', _, h2', h3', _, _⟩ := createsDec hc'
    have hp : L1 ++ [(τ, .call (.createDecryptionCache a) m)] <+: L1' := by
      refine List.prefix_of_prefix_length_le (l₃ := L) ⟨L2 ++ [(τ, .finish)] ++ L3, by rw [e]; simp [untilCreated]⟩
        ⟨(τ', .call (.createDecryptionCache a') m') :: L2' ++ [(τ', .finish)] ++ L3', by rw [e']; simp [untilCreated]⟩ (by simp; omega)
    obtain ⟨R, hR⟩ := hp
    have hd := decActs_draws (lib := lib) Sys.init L
    have e'' : L = L1' ++ (τ', .call (.createDecryptionCache a') m') :: (L2' ++ [(τ', .finish)] ++ L3') := by rw [e']; simp [untilCreated]
    rw [e'', decActs_append, draws_append] at hd
    simp only [decActs, h2', draws] at hd
    rw [← e''] at hd
    have hlt' : draws (decActs lib Sys.init L1) < draws (decActs lib Sys.init L1') := by
      rw [← hR, decActs_append, draws_append, decActs_append, draws_append]
      simp only [decActs, h2, draws]
      omega
    rw [h3, h3']
    intro he
    have := int32_ofNat_inj (by omega) (by omega) he
    omega
  rcases Nat.lt_or_ge L1.length L1'.length with hlt | hge
  · exact key e e' hc hc' hlt
  · exact (key e' e hc' hc (by omega)).symm

/-- A thread creating a cache alone, without interference. -/
theorem round_dec {s : Sys (EncryptionCache G2 Gt) (DecryptionKey K G1 G3)} {τ : Thread} (hi : s.Idle τ) {a : InBuf} {c : DecryptionKey K G1 G3}
    (hc : KeyDecodes lib a c) {m : CMem} (hm : m.handle ≠ none) :
    (fstep lib s τ (.call (.createDecryptionCache a) m)).2 = none ∧
    (fstep lib (fstep lib s τ (.call (.createDecryptionCache a) m)).1 τ .finish).2 = some (.ret 0, { m with handle := some s.dec.next }) ∧
    (fstep lib (fstep lib s τ (.call (.createDecryptionCache a) m)).1 τ .finish).1.Idle τ ∧
    (fstep lib (fstep lib s τ (.call (.createDecryptionCache a) m)).1 τ .finish).1.dec = ⟨s.dec.next + 1, hinsert s.dec.map s.dec.next c⟩ := by
  obtain ⟨x, hx⟩ := Option.ne_none_iff_exists'.1 hm
  rw [fstep_createDec _ _ _ _ hi, prepareDecryptionCache_iff.2 hc]
  simp [startCreation, Prog.pure_def, Prog.pure, fstep, Sys.back, upd_self, hi.1, Sys.view, Prog.run, writeHandle, hx, finish, Sys.Idle,
    Registry.fetchAdd, Registry.insert, hi.2]

theorem creations_dec {τ : Thread} {a : InBuf} {c : DecryptionKey K G1 G3} (hc : KeyDecodes lib a c) {m : CMem} (hm : m.handle ≠ none) (n : Nat)
    {s : Sys (EncryptionCache G2 Gt) (DecryptionKey K G1 G3)} (hi : s.Idle τ) :
    (frun lib s (creations τ (.createDecryptionCache a) m n)).Idle τ ∧
    (frun lib s (creations τ (.createDecryptionCache a) m n)).dec.next = s.dec.next + Int32.ofNat n ∧
    (n ≠ 0 → (frun lib s (creations τ (.createDecryptionCache a) m n)).dec.get (s.dec.next + Int32.ofNat (n - 1)) = some c) := by
  induction n with
  | zero => exact ⟨hi, by simp [creations, frun], fun h => absurd rfl h⟩
  | succ n ih =>
    obtain ⟨h1, h2, _⟩ := ih
    obtain ⟨_, _, h4, h5⟩ := round_dec h1 hc hm
    simp only [creations, frun_append, frun]
    refine ⟨h4, ?_, fun _ => ?_⟩
    · rw [h5, h2]
      show _ + _ + Int32.ofNat 1 = _
      rw [Int32.add_assoc, int32_ofNat_add n 1]
    · rw [h5, h2]
      show hget _ _ = _
      rw [hget_hinsert, Nat.add_sub_cancel, if_pos rfl]

theorem decCreations_creations (τ : Thread) (a : InBuf) (m : CMem) (n : Nat) :
    decCreations (creations τ (.createDecryptionCache a) m n : List (Thread × FEvent K Gt Nonce)) = n := by
  induction n with
  | zero => rfl
  | succ n ih =>
    simp only [creations]
    rw [decCreations_append, ih]
    rfl

/-- **C44**, decryption caches, why the number of creations is bounded: after `2 ^ 32` more creations, a handle which has not been destroyed
designates another cache. -/
theorem C44_decryption_overwritten {a1 a2 : InBuf} {c1 c2 : DecryptionKey K G1 G3} (h1 : KeyDecodes lib a1 c1) (h2 : KeyDecodes lib a2 c2) (τ : Thread)
    {m : CMem} (hm : m.handle ≠ none) :
    ∃ (L : List (Thread × FEvent K Gt Nonce)) (h : Int32), decCreations L = 2 ^ 32 + 1 ∧ DecHandle lib L h a1 ∧
      (frun lib Sys.init L).dec.get h = some c2 := by
  obtain ⟨g1, g2, g3, g4⟩ := round_dec (lib := lib) (s := Sys.init) (τ := τ) ⟨rfl, rfl⟩ h1 hm
  refine ⟨untilCreated [] τ (.createDecryptionCache a1) m [] ++ creations τ (.createDecryptionCache a2) m (2 ^ 32), 0, ?_,
    ⟨[], τ, m, [], _, rfl, ⟨⟨rfl, rfl⟩, g1, by simp, _, g2, rfl⟩, fun Ld τ' m' Le he => ?_⟩, ?_⟩
  · rw [decCreations_append, decCreations_creations]
    simp only [untilCreated, List.nil_append, List.cons_append, decCreations]
    omega
  · refine absurd (mem_creations (x := (τ', FEvent.call (.destroyDecryptionCache 0) m')) (by rw [he]; simp)) ?_
    simp
  · have hN : (2 ^ 32 : Nat) ≠ 0 := by decide
    have := (creations_dec (lib := lib) (τ := τ) h2 hm (2 ^ 32) g3).2.2 hN
    rw [g4] at this
    rw [frun_append]
    refine (congrArg _ ?_).trans this
    show (0 : Int32) = 0 + 1 + Int32.ofNat (2 ^ 32 - 1)
    decide +kernel

/-- **C45**, decryption caches: a handle which designates something has been given by a creation, from whose arguments the cache was made,
and has not been destroyed since. -/
theorem C45_decryption {L : List (Thread × FEvent K Gt Nonce)} (hw : HandlesWanted L) {h : Int32} {c : DecryptionKey K G1 G3}
    (hg : (frun lib Sys.init L).dec.get h = some c) : ∃ a, DecHandle lib L h a ∧ KeyDecodes lib a c := by
  have hg' : ((Sys.init : Sys (EncryptionCache G2 Gt) (DecryptionKey K G1 G3)).decView.acts (decActs lib Sys.init L)).reg.get h = some c := by
    rw [← decActs_run]; exact hg
  obtain ⟨l1, τ, l2, p, h1, h2, h3, h4, h5⟩ := acts_live hg' rfl
  obtain ⟨L12, τ', ev, L3, rfl, h6, h7, h8⟩ := decActs_split h1
  obtain ⟨rfl, rfl, hpe⟩ := decAct_commit h7
  rw [← h6] at h2
  have hpend : (frun lib Sys.init L12).pendDec τ = some p := by
    rw [← decActs_run] at h2; exact h2
  obtain ⟨m1, m2, g1, g2, g3⟩ := acts_pend h2 rfl
  obtain ⟨L1, τ'', ev, L2, rfl, g4, g5, g6⟩ := decActs_split g1
  obtain ⟨rfl, g7, a, rfl, g8⟩ := decAct_draw g5
  have hfin : (τ, FEvent.finish) ∉ L2 := by
    intro hm
    apply g3
    rw [← g6]
    obtain ⟨x, y, rfl, hx⟩ := mem_first hm
    rw [decActs_append]
    have hp' : (frun lib Sys.init (L1 ++ [(τ, .call (.createDecryptionCache a) p.mem)])).pendDec τ =
          some ⟨(frun lib Sys.init L1).dec.next, p.cache, p.mem⟩ ∧
        (frun lib Sys.init (L1 ++ [(τ, .call (.createDecryptionCache a) p.mem)])).pendEnc τ = none := by
      rw [frun_append]
      simp only [frun]
      rw [fstep_createDec _ τ a p.mem g7, prepareDecryptionCache_iff.2 g8]
      exact ⟨upd_self _ _ _, g7.1⟩
    simp [decActs, decAct, pendEnc_none_kept hp'.1 hp'.2 hx]
  have hm : p.mem.handle ≠ none := hw.2 τ a p.mem (by simp)
  have hcreate : CreatesHandle lib L1 τ (.createDecryptionCache a) p.mem L2 h := by
    refine ⟨g7, ?_, hfin, ?_⟩
    · rw [fstep_createDec _ τ a p.mem g7, prepareDecryptionCache_iff.2 g8]
      rfl
    · simp only [fstep, hpend, hpe]
      cases hh : p.mem.handle with
      | none => exact absurd hh hm
      | some x =>
        refine ⟨{ p.mem with handle := some h }, ?_, rfl⟩
        rw [← h3]
        simp only [Prog.run, writeHandle, Sys.view, hh, finish]
  rw [h4] at g8
  refine ⟨a, ⟨L1, τ, p.mem, L2, L3, by simp [untilCreated], hcreate, ?_⟩, g8⟩
  rw [← decActs_remove_iff]
  unfold untilCreated
  rw [h8]
  exact h5

/-- **C45**, decryption caches: after a history where the handle was never given, or was destroyed since, a call with it fails with an error
and writes nothing. -/
theorem C45_decryption_refused {L : List (Thread × FEvent K Gt Nonce)} (hw : HandlesWanted L) {h : Int32}
    (hn : ∀ a, ¬ DecHandle lib L h a) {τ : Thread} (hi : (frun lib Sys.init L).Idle τ) {m : CMem} (hl : m.LengthsGiven) {x : InBuf} (hx : x.Honest) :
    ∃ e, fstep lib (frun lib Sys.init L) τ (.call (.decryptHeaderUsingCache x h) m) =
      ({ frun lib Sys.init L with err := Sys.upd (frun lib Sys.init L).err τ (some e) }, some (.ret 1, m)) := by
  have hg : (frun lib Sys.init L).dec.get h = none := by
    cases hg : (frun lib Sys.init L).dec.get h with
    | none => rfl
    | some c =>
      obtain ⟨a, ha, _⟩ := C45_decryption hw hg
      exact absurd ha (hn a)
  rw [fstep_other _ τ _ m hi (by simp) (by simp)]
  obtain ⟨e, he⟩ := C45_unknown_decryption_handle (lib := lib) (s := (frun lib Sys.init L).view τ m) hg hl hx
  simp only [FCall.prog]
  rw [he]
  exact ⟨e, rfl⟩

/-- **C45**: destroying a decryption cache returns 0, whatever the handle; the handle designates nothing afterwards, and nothing else
changes. -/
theorem C45_decryption_destroy (s : Sys (EncryptionCache G2 Gt) (DecryptionKey K G1 G3)) {τ : Thread} (hi : s.Idle τ) (h : Int32) (m : CMem) :
    let r := fstep lib s τ (.call (.destroyDecryptionCache h : FCall K Gt Nonce) m)
    r.2 = some (.ret 0, m) ∧ r.1.dec.get h = none ∧ (∀ h', h' ≠ h → r.1.dec.get h' = s.dec.get h') ∧ r.1.enc = s.enc ∧ r.1.err = s.err := by
  intro r
  have hr : r = _ := fstep_other s τ _ m hi (by simp) (by simp)
  rw [hr]
  refine ⟨rfl, ?_, fun h' hne => ?_, rfl, ?_⟩
  · show hget (hremove s.dec.map h) h = none
    rw [hget_hremove, if_pos rfl]
  · show hget (hremove s.dec.map h) h' = hget s.dec.map h'
    rw [hget_hremove, if_neg hne]
  · funext τ'
    show Sys.upd s.err τ (s.err τ) τ' = s.err τ'
    simp only [Sys.upd]
    split
    · rename_i h; rw [h]
    · rfl

/-- **C46**, decryption, in histories: a call with a handle has the same reply and the same effect as the call without cache. -/
theorem C46_decryption_history {L : List (Thread × FEvent K Gt Nonce)} {h : Int32} {a : InBuf} (hL : decCreations L ≤ 2 ^ 32)
    (hl : DecHandle lib L h a) {τ : Thread} (hi : (frun lib Sys.init L).Idle τ) (m : CMem) (x : InBuf) :
    fstep lib (frun lib Sys.init L) τ (.call (.decryptHeaderUsingCache x h) m) = fstep lib (frun lib Sys.init L) τ (.call (.decryptHeader x a) m) := by
  obtain ⟨c, h1, h2⟩ := C44_decryption hL hl
  rw [fstep_other _ τ _ m hi (by simp) (by simp), fstep_other _ τ _ m hi (by simp) (by simp)]
  simp only [FCall.prog]
  rw [C46_decryption h1 (s := (frun lib Sys.init L).view τ m) h2 x]

end

namespace Demo

/-- The memory of a caller. -/
def memAny : CMem := ⟨fun _ => buf 1000 1000, some 0⟩

/-- Other arguments, for the rotated policy. -/
def cacheArgs2 : EncCacheArgs := ⟨some [2, 0], input pubB⟩
def cache2 : EncryptionCache F F := ⟨rotated, mkF.pubKey⟩
theorem cache2_decodes : cacheArgs2.Decodes ffi cache2 := ⟨strArg_demo 2 (by decide) (by decide +kernel) rfl, pub_arg⟩

theorem cache_ne : cache ≠ cache2 := by
  intro h
  have : policy = rotated := congrArg EncryptionCache.policy h
  revert this
  decide +kernel

/-- Thread 1 begins the creation of a cache; thread 2 creates another one; thread 1 finishes; thread 2 destroys its cache. -/
def history : List (Thread × FEvent F F SymNonce) :=
  untilCreated [] 1 (.createEncryptionCache cacheArgs) memAny [(2, .call (.createEncryptionCache cacheArgs2) memAny), (2, .finish)] ++
    [(2, .call (.destroyEncryptionCache 1) memAny)]

theorem step_create (s : Sys (EncryptionCache F F) (DecryptionKey F F F)) (τ : Thread) {a : EncCacheArgs} {c : EncryptionCache F F}
    (hc : a.Decodes ffi c) (hi : s.Idle τ) : fstep ffi s τ (.call (.createEncryptionCache a : FCall F F SymNonce) memAny) =
      ({ s.back τ (s.view τ memAny) with
          enc := s.enc.fetchAdd.2, pendEnc := Sys.upd s.pendEnc τ (some ⟨s.enc.fetchAdd.1, c, memAny⟩) }, none) := by
  rw [fstep_createEnc _ _ _ _ hi, prepareEncryptionCache_iff.2 hc]
  rfl

theorem history_handle : EncHandle ffi history 0 cacheArgs := by
  refine ⟨[], 1, memAny, _, _, rfl, ⟨⟨rfl, rfl⟩, ?_, by simp, ?_⟩, fun Ld τ m Le he => ?_⟩
  · rw [step_create _ _ cache_decodes (by exact ⟨rfl, rfl⟩)]
  · simp only [List.nil_append, frun]
    rw [step_create _ _ cache_decodes (by exact ⟨rfl, rfl⟩)]
    dsimp only
    rw [step_create _ _ cache2_decodes (by exact ⟨rfl, rfl⟩)]
    exact ⟨{ memAny with handle := some 0 }, rfl, rfl⟩
  · cases Ld with
    | nil => simp at he
    | cons x Ld => simp at he

theorem history_wanted : HandlesWanted history := by
  constructor
  · intro τ a m h
    simp [history, untilCreated] at h
    rcases h with h | h <;> rw [h.2.2] <;> decide
  · intro τ a m h
    simp [history, untilCreated] at h

theorem history_creations : encCreations history ≤ 2 ^ 32 := by decide

theorem history_idle : (frun ffi Sys.init history).Idle 2 := by
  simp only [history, untilCreated, List.nil_append, List.cons_append, frun]
  rw [step_create _ _ cache_decodes (by exact ⟨rfl, rfl⟩)]
  dsimp only
  rw [step_create _ _ cache2_decodes (by exact ⟨rfl, rfl⟩)]
  exact ⟨rfl, rfl⟩

/-- **C44**: handle 0 designates the first cache. -/
example : ∃ c, cacheArgs.Decodes ffi c ∧ (frun ffi Sys.init history).enc.get 0 = some c := C44_encryption history_creations history_handle

/-- **C46**: thread 2 can use it. -/
example : fstep ffi (frun ffi Sys.init history) 2 (.call (.encryptHeaderUsingCache 0 (headerArgs 1)) memAny) =
    fstep ffi (frun ffi Sys.init history) 2 (.call (.encryptHeader cacheArgs (headerArgs 1)) memAny) :=
  C46_encryption_history history_creations history_handle history_idle _ _

/-- **C44**: the handles of the two threads are different. -/
example : (0 : Int32) ≠ 1 := by
  refine C44_encryption_distinct (lib := ffi) (L := history) history_creations (L1 := []) (τ := 1) (a := cacheArgs) (m := memAny)
    (L2 := [(2, .call (.createEncryptionCache cacheArgs2) memAny), (2, .finish)]) (L3 := [(2, .call (.destroyEncryptionCache 1) memAny)])
    (L1' := [(1, .call (.createEncryptionCache cacheArgs) memAny)]) (τ' := 2) (a' := cacheArgs2) (m' := memAny) (L2' := [])
    (L3' := [(1, .finish), (2, .call (.destroyEncryptionCache 1) memAny)]) rfl rfl ?_ ?_ (by decide)
  · refine ⟨⟨rfl, rfl⟩, ?_, by simp, ?_⟩
    · rw [step_create _ _ cache_decodes (by exact ⟨rfl, rfl⟩)]
    · simp only [List.nil_append, frun]
      rw [step_create _ _ cache_decodes (by exact ⟨rfl, rfl⟩)]
      dsimp only
      rw [step_create _ _ cache2_decodes (by exact ⟨rfl, rfl⟩)]
      exact ⟨{ memAny with handle := some 0 }, rfl, rfl⟩
  · simp only [CreatesHandle, List.cons_append, List.nil_append, frun]
    rw [step_create _ _ cache_decodes (by exact ⟨rfl, rfl⟩)]
    dsimp only
    refine ⟨⟨rfl, rfl⟩, ?_, by simp, ?_⟩
    · rw [step_create _ _ cache2_decodes (by exact ⟨rfl, rfl⟩)]
    · rw [step_create _ _ cache2_decodes (by exact ⟨rfl, rfl⟩)]
      exact ⟨{ memAny with handle := some 1 }, rfl, rfl⟩

/-- **C44**: after `2 ^ 32` other creations, the handle of the first cache designates the second one. -/
example : ∃ L : List (Thread × FEvent F F SymNonce), ∃ h, EncHandle ffi L h cacheArgs ∧ (frun ffi Sys.init L).enc.get h = some cache2 := by
  obtain ⟨L, h, _, h1, h2⟩ := C44_encryption_overwritten cache_decodes cache2_decodes 1 (m := memAny) (by decide)
  exact ⟨L, h, h1, h2⟩

/-- The handle 1 has been destroyed. -/
theorem destroyed : ∀ a, ¬ EncHandle ffi history 1 a := by
  intro a h
  obtain ⟨c, _, hg⟩ := C44_encryption history_creations h
  simp only [history, untilCreated, List.nil_append, List.cons_append, frun] at hg
  rw [step_create _ _ cache_decodes (by exact ⟨rfl, rfl⟩)] at hg
  dsimp only at hg
  rw [step_create _ _ cache2_decodes (by exact ⟨rfl, rfl⟩)] at hg
  cases hg

/-- **C45**: the destroyed handle is refused. -/
example : ∃ e, fstep ffi (frun ffi Sys.init history) 2 (.call (.encryptHeaderUsingCache 1 (headerArgs 1)) memAny) =
      ({ frun ffi Sys.init history with err := Sys.upd (frun ffi Sys.init history).err 2 (some e) }, some (.ret 1, memAny)) :=
  C45_encryption_refused history_wanted destroyed history_idle (fun k _ h => by cases h) _

/-- **C45**: the handle which designates something has been created. -/
example : ∃ a, EncHandle ffi history 0 a ∧ a.Decodes ffi cache := by
  obtain ⟨c, h1, h2⟩ := C44_encryption history_creations history_handle
  obtain rfl := pure_eq_pure.1 ((prepareEncryptionCache_iff.2 h1).symm.trans (prepareEncryptionCache_iff.2 cache_decodes))
  exact C45_encryption history_wanted h2

example : (fstep ffi (frun ffi Sys.init history) 2 (.call (.destroyEncryptionCache 0) memAny)).1.enc.get 0 = none :=
  (C45_encryption_destroy (lib := ffi) _ history_idle 0 memAny).2.1

/-! The same with decryption caches. -/

def historyD : List (Thread × FEvent F F SymNonce) :=
  untilCreated [] 1 (.createDecryptionCache (input userB)) memAny [] ++ [(2, .call (.destroyDecryptionCache 7) memAny)]

theorem step_createD (s : Sys (EncryptionCache F F) (DecryptionKey F F F)) (τ : Thread) {a : InBuf} {c : DecryptionKey F F F}
    (hc : KeyDecodes ffi a c) (hi : s.Idle τ) : fstep ffi s τ (.call (.createDecryptionCache a : FCall F F SymNonce) memAny) =
      ({ s.back τ (s.view τ memAny) with
          dec := s.dec.fetchAdd.2, pendDec := Sys.upd s.pendDec τ (some ⟨s.dec.fetchAdd.1, c, memAny⟩) }, none) := by
  rw [fstep_createDec _ _ _ _ hi, prepareDecryptionCache_iff.2 hc]
  rfl

theorem historyD_handle : DecHandle ffi historyD 0 (input userB) := by
  obtain ⟨key, hkey⟩ := userB_decodes
  refine ⟨[], 1, memAny, _, _, rfl, ⟨⟨rfl, rfl⟩, ?_, by simp, ?_⟩, fun Ld τ m Le he => ?_⟩
  · rw [step_createD _ _ hkey (by exact ⟨rfl, rfl⟩)]
  · simp only [List.nil_append, frun]
    rw [step_createD _ _ hkey (by exact ⟨rfl, rfl⟩)]
    exact ⟨{ memAny with handle := some 0 }, rfl, rfl⟩
  · cases Ld with
    | nil => simp at he
    | cons x Ld => simp at he

theorem historyD_idle : (frun ffi Sys.init historyD).Idle 2 := by
  obtain ⟨key, hkey⟩ := userB_decodes
  simp only [historyD, untilCreated, List.nil_append, List.cons_append, frun]
  rw [step_createD _ _ hkey (by exact ⟨rfl, rfl⟩)]
  exact ⟨rfl, rfl⟩

theorem historyD_wanted : HandlesWanted historyD := by
  constructor
  · intro τ a m h
    simp [historyD, untilCreated] at h
  · intro τ a m h
    simp [historyD, untilCreated] at h
    rw [h.2.2]
    decide

example : ∃ c, KeyDecodes ffi (input userB) c ∧ (frun ffi Sys.init historyD).dec.get 0 = some c := C44_decryption (by decide) historyD_handle
example (hd : InBuf) : fstep ffi (frun ffi Sys.init historyD) 2 (.call (.decryptHeaderUsingCache hd 0) memAny) =
    fstep ffi (frun ffi Sys.init historyD) 2 (.call (.decryptHeader hd (input userB)) memAny) :=
  C46_decryption_history (by decide) historyD_handle historyD_idle _ _
example : ∃ e, fstep ffi (frun ffi Sys.init historyD) 2 (.call (.decryptHeaderUsingCache (input [1, 2]) 7) memAny) =
      ({ frun ffi Sys.init historyD with err := Sys.upd (frun ffi Sys.init historyD).err 2 (some e) }, some (.ret 1, memAny)) := by
  refine C45_decryption_refused historyD_wanted (fun a h => ?_) historyD_idle (fun k _ h => by cases h) (.inr ⟨_, input_isIn (by decide)⟩)
  obtain ⟨c, _, hg⟩ := C44_decryption (by decide) h
  obtain ⟨key, hkey⟩ := userB_decodes
  simp only [historyD, untilCreated, List.nil_append, List.cons_append, frun] at hg
  rw [step_createD _ _ hkey (by exact ⟨rfl, rfl⟩)] at hg
  cases hg
example : ∃ L : List (Thread × FEvent F F SymNonce), ∃ h, decCreations L = 2 ^ 32 + 1 ∧ DecHandle ffi L h (input userB) := by
  obtain ⟨key, hkey⟩ := userB_decodes
  obtain ⟨L, h, h0, h1, _⟩ := C44_decryption_overwritten hkey hkey 1 (m := memAny) (by decide)
  exact ⟨L, h, h0, h1⟩
example : (fstep ffi (frun ffi Sys.init historyD) 2 (.call (.destroyDecryptionCache 0) memAny)).1.dec.get 0 = none :=
  (C45_decryption_destroy (lib := ffi) _ historyD_idle 0 memAny).2.1
example : (0 : Int32) ≠ 1 := by
  obtain ⟨key, hkey⟩ := userB_decodes
  refine C44_decryption_distinct (lib := ffi)
    (L := [(1, .call (.createDecryptionCache (input userB)) memAny), (2, .call (.createDecryptionCache (input userB)) memAny), (2, .finish), (1, .finish)])
    (by decide) (L1 := []) (τ := 1) (a := input userB) (m := memAny)
    (L2 := [(2, .call (.createDecryptionCache (input userB)) memAny), (2, .finish)]) (L3 := [])
    (L1' := [(1, .call (.createDecryptionCache (input userB)) memAny)]) (τ' := 2) (a' := input userB) (m' := memAny) (L2' := [])
    (L3' := [(1, .finish)]) rfl rfl ?_ ?_ (by decide)
  · refine ⟨⟨rfl, rfl⟩, ?_, by simp, ?_⟩
    · rw [step_createD _ _ hkey (by exact ⟨rfl, rfl⟩)]
    · simp only [List.nil_append, frun]
      rw [step_createD Sys.init _ hkey (by exact ⟨rfl, rfl⟩)]
      dsimp only
      rw [step_createD _ _ hkey (by exact ⟨rfl, rfl⟩)]
      exact ⟨{ memAny with handle := some 0 }, rfl, rfl⟩
  · simp only [CreatesHandle, List.cons_append, List.nil_append, frun]
    rw [step_createD Sys.init _ hkey (by exact ⟨rfl, rfl⟩)]
    dsimp only
    refine ⟨⟨rfl, rfl⟩, ?_, by simp, ?_⟩
    · rw [step_createD _ _ hkey (by exact ⟨rfl, rfl⟩)]
    · rw [step_createD _ _ hkey (by exact ⟨rfl, rfl⟩)]
      exact ⟨{ memAny with handle := some 1 }, rfl, rfl⟩

end Demo

end Abe

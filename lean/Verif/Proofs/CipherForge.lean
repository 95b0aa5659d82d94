import Verif.Proofs.CipherSecrecy
import Verif.Props.SystemIntegrity

/-!
# Forgeries of hybrid messages under a random function: lemmas
-/

set_option linter.unusedSectionVars false

namespace Abe

open Gcm

variable {K P Q QP T : Type} [Field K] [DecidableEq K] [AddCommGroup P] [Module K P] [AddCommGroup Q] [Module K Q] [AddCommGroup T] [Module K T]

section average

variable {α ι Γ : Type}

/-- Among the draws that are not excluded there is one that is as good as the average, up to the probability of those that are. -/
theorem draw_best [Fintype α] [Nonempty α] (S : Finset ι) (f : α → ι → ℝ) (h0 : ∀ a i, 0 ≤ f a i) (h1 : ∀ a i, f a i ≤ 1) (bad : Finset α) {k : ℝ}
    (hk : (bad.card : ℝ) ≤ k * Fintype.card α) (P : Γ → Prop) (w : Γ → ι → ℝ) (hw : ∀ G, P G → ∀ i, 0 ≤ w G i)
    (h : ∀ a, a ∉ bad → ∃ G, P G ∧ ∑ i ∈ S, f a i ≤ ∑ i ∈ S, w G i) (hne : ∃ G, P G) :
    ∃ G, P G ∧ ∑ i ∈ S, (∑ a, f a i) / Fintype.card α ≤ ∑ i ∈ S, (w G i + k) := by
  classical
  have hc : (0 : ℝ) < Fintype.card α := by exact_mod_cast Fintype.card_pos
  have hF : ∀ a, ∑ i ∈ S, f a i ≤ S.card := fun a => (Finset.sum_le_sum fun i _ => h1 a i).trans (by simp)
  have hswap : ∑ i ∈ S, (∑ a, f a i) / Fintype.card α = (∑ a, ∑ i ∈ S, f a i) / Fintype.card α := by
    rw [← Finset.sum_div, Finset.sum_comm]
  have hsplit : ∑ a, ∑ i ∈ S, f a i = ∑ a ∈ bad, ∑ i ∈ S, f a i + ∑ a ∈ badᶜ, ∑ i ∈ S, f a i := (Finset.sum_add_sum_compl bad _).symm
  have hbad : ∑ a ∈ bad, ∑ i ∈ S, f a i ≤ k * Fintype.card α * S.card := by
    calc ∑ a ∈ bad, ∑ i ∈ S, f a i ≤ ∑ a ∈ bad, (S.card : ℝ) := Finset.sum_le_sum fun a _ => hF a
      _ = bad.card * S.card := by simp
      _ ≤ _ := mul_le_mul_of_nonneg_right hk (by positivity)
  have key : ∀ G M, P G → 0 ≤ M → M ≤ ∑ i ∈ S, w G i → ∑ a ∈ badᶜ, ∑ i ∈ S, f a i ≤ Fintype.card α * M →
      ∑ i ∈ S, (∑ a, f a i) / Fintype.card α ≤ ∑ i ∈ S, (w G i + k) := by
    intro G M hG h0 hM hs
    rw [hswap, hsplit, Finset.sum_add_distrib, Finset.sum_const, nsmul_eq_mul, div_le_iff₀ hc]
    nlinarith
  by_cases hb : badᶜ = ∅
  · obtain ⟨G, hG⟩ := hne
    refine ⟨G, hG, key G 0 hG le_rfl (Finset.sum_nonneg fun i _ => hw G hG i) ?_⟩
    rw [hb]
    simp
  · obtain ⟨a, ha, hmax⟩ := Finset.exists_max_image badᶜ (fun a => ∑ i ∈ S, f a i) (Finset.nonempty_iff_ne_empty.2 hb)
    obtain ⟨G, hG, hle⟩ := h a (by simpa using ha)
    refine ⟨G, hG, key G _ hG (Finset.sum_nonneg fun i _ => h0 a i) hle ?_⟩
    calc ∑ a ∈ badᶜ, ∑ i ∈ S, f a i ≤ ∑ _ ∈ badᶜ, ∑ i ∈ S, f a i := Finset.sum_le_sum hmax
      _ = (badᶜ.card : ℝ) * ∑ i ∈ S, f a i := by simp
      _ ≤ _ := mul_le_mul_of_nonneg_right (by exact_mod_cast Finset.card_le_univ _) (Finset.sum_nonneg fun i _ => h0 a i)

/-- What holds for each answer holds for all of them. -/
theorem sum_split {γ : Type} [DecidableEq γ] (S : Finset ι) (g : ι → γ) (f w : ι → ℝ) (h : ∀ c, ∑ i ∈ S.filter (g · = c), f i ≤ ∑ i ∈ S.filter (g · = c), w i) :
    ∑ i ∈ S, f i ≤ ∑ i ∈ S, w i := by
  rw [← Finset.sum_fiberwise_of_maps_to (g := g) (t := S.image g) (fun i hi => Finset.mem_image_of_mem g hi) f,
    ← Finset.sum_fiberwise_of_maps_to (g := g) (t := S.image g) (fun i hi => Finset.mem_image_of_mem g hi) w]
  exact Finset.sum_le_sum fun c _ => h c

open Classical in
/-- Probability over a uniform choice, from a sum over all choices. -/
theorem prob_uniform_le [Fintype α] [Nonempty α] (f : α → PMF Bool) (W : α → Prop) {k B : Nat} (hB : 0 < B) (κ : ℝ)
    (h : ∑ a, prob (f a) ≤ ∑ a, ((if W a then 1 else 0) + κ)) (hW : (Finset.univ.filter W).card * B ≤ k * Fintype.card α) :
    prob ((PMF.uniformOfFintype α).bind f) ≤ k / B + κ := by
  have hc : (0 : ℝ) < Fintype.card α := by exact_mod_cast Fintype.card_pos
  have hB' : (0 : ℝ) < B := by exact_mod_cast hB
  rw [prob_uniform, div_le_iff₀ hc]
  refine h.trans ?_
  rw [Finset.sum_add_distrib, Finset.sum_const, nsmul_eq_mul, Finset.card_univ, Finset.sum_boole]
  have h1 : ((Finset.univ.filter W).card : ℝ) * B ≤ k * Fintype.card α := by exact_mod_cast hW
  have h2 : ((Finset.univ.filter W).card : ℝ) ≤ k / B * Fintype.card α := by
    rw [div_mul_eq_mul_div, le_div_iff₀ hB']
    exact h1
  linarith

end average

/-! ## Forgers of ciphertexts -/

section steps

variable {ι : Type} (F : ι → Bytes → Bytes) {L : Nat}

open Classical in
/-- Whether the forger wins. -/
noncomputable def win (G : Gcm.Forger) (seen : List Entry) (i : ι) : ℝ := if G.Wins (F i) seen then 1 else 0

theorem win_nonneg (G : Gcm.Forger) (seen : List Entry) (i : ι) : 0 ≤ win F G seen i := by
  unfold win
  split <;> norm_num

theorem ask_step {v : Nat} {used : List Bytes} {n ad m : Bytes} (S : Finset ι) (f : ι → ℝ) (k : ℝ) (seen : List Entry) (answer : ι → Bytes)
    (hans : ∀ i, Gcm.encrypt (F i) n ad m = .ok (answer i)) (h1 : n.length = 12) (h2 : n ∉ used) (h3 : m.length ≤ maxClear) (h4 : ad.length ≤ limit)
    (h5 : units ad + units m ≤ L)
    (h : ∀ c, ∃ G : Gcm.Forger, G.Proper L v (n :: used) ∧ ∑ i ∈ S.filter (answer · = c), f i ≤ ∑ i ∈ S.filter (answer · = c), (win F G ((n, ad, c) :: seen) i + k)) :
    ∃ G : Gcm.Forger, G.Proper L v used ∧ ∑ i ∈ S, f i ≤ ∑ i ∈ S, (win F G seen i + k) := by
  choose next hp hs using h
  refine ⟨.ask n ad m next, ⟨h1, h2, h3, h4, h5, hp⟩, sum_split S answer _ _ fun c => (hs c).trans (le_of_eq (Finset.sum_congr rfl fun i hi => ?_))⟩
  rw [Finset.mem_filter] at hi
  have hw : (Gcm.Forger.ask n ad m next).Wins (F i) seen ↔ (next c).Wins (F i) ((n, ad, c) :: seen) := by rw [Gcm.Forger.Wins, hans i, hi.2]
  unfold win
  by_cases h : (next c).Wins (F i) ((n, ad, c) :: seen)
  · rw [if_pos h, if_pos (hw.2 h)]
  · rw [if_neg h, if_neg fun h' => h (hw.1 h')]

theorem wins_submit (E : Bytes → Bytes) (n ad c : Bytes) (next : Option Bytes → Gcm.Forger) (seen : List Entry) :
    (Gcm.Forger.submit n ad c next).Wins E seen ↔
      ((Gcm.decrypt E n ad c).toOption ≠ none ∧ (n, ad, c) ∉ seen) ∨ (next (Gcm.decrypt E n ad c).toOption).Wins E seen := by
  rw [Gcm.Forger.Wins]
  cases Gcm.decrypt E n ad c with
  | ok m => simp [Res.toOption]
  | err _ => simp [Res.toOption]
  | panic => simp [Res.toOption]

open Classical in
theorem submit_step {v : Nat} {used : List Bytes} {n ad c : Bytes} (S : Finset ι) (f : ι → ℝ) (k : ℝ) (seen : List Entry) (h1 : n.length = 12)
    (h2 : units ad + units (c.take (c.length - 16)) ≤ L) (h3 : 0 < v)
    (h : ∀ r, ∃ G : Gcm.Forger, G.Proper L (v - 1) used ∧ ∑ i ∈ S.filter (fun i => (Gcm.decrypt (F i) n ad c).toOption = r), f i ≤
      ∑ i ∈ S.filter (fun i => (Gcm.decrypt (F i) n ad c).toOption = r), ((if r ≠ none ∧ (n, ad, c) ∉ seen then 1 else win F G seen i) + k)) :
    ∃ G : Gcm.Forger, G.Proper L v used ∧ ∑ i ∈ S, f i ≤ ∑ i ∈ S, (win F G seen i + k) := by
  choose next hp hs using h
  refine ⟨.submit n ad c next, ⟨h1, h2, h3, hp⟩, sum_split S (fun i => (Gcm.decrypt (F i) n ad c).toOption) _ _ fun r => (hs r).trans
    (Finset.sum_le_sum fun i hi => ?_)⟩
  rw [Finset.mem_filter] at hi
  refine add_le_add_left ?_ k
  unfold win
  by_cases hc : r ≠ none ∧ (n, ad, c) ∉ seen
  · rw [if_pos hc, if_pos]
    rw [wins_submit, hi.2]
    exact .inl hc
  · rw [if_neg hc]
    by_cases hw : (next r).Wins (F i) seen
    · rw [if_pos hw, if_pos]
      rw [wins_submit, hi.2]
      exact .inr hw
    · rw [if_neg hw]
      split <;> norm_num

end steps

/-- What the draws of `q` further nonces cost if `u` are taken. -/
noncomputable def cost (q u : Nat) : ℝ := q * (2 * u + q - 1) / 2 ^ 97

theorem cost_nonneg (q u : Nat) : 0 ≤ cost q u := by
  unfold cost
  rcases q with _ | q
  · simp
  · have : (0 : ℝ) ≤ 2 * u + (q + 1 : Nat) - 1 := by
      push_cast
      linarith [Nat.cast_nonneg (α := ℝ) u, Nat.cast_nonneg (α := ℝ) q]
    positivity

theorem cost_step {q : Nat} (hq : 0 < q) (u : Nat) : cost (q - 1) (u + 1) + u / 2 ^ 96 = cost q u := by
  obtain ⟨q, rfl⟩ := Nat.exists_eq_add_of_le' hq
  unfold cost
  rw [Nat.add_sub_cancel]
  push_cast
  ring

theorem cost_mono {q : Nat} (hq : 0 < q) (u : Nat) : cost (q - 1) u ≤ cost q u := by
  obtain ⟨q, rfl⟩ := Nat.exists_eq_add_of_le' hq
  unfold cost
  rw [Nat.add_sub_cancel]
  refine div_le_div_of_nonneg_right ?_ (by positivity)
  push_cast
  nlinarith [Nat.cast_nonneg (α := ℝ) u, Nat.cast_nonneg (α := ℝ) q]

/-! ## Messages -/

section messages

variable {metaEnc : Metadata → Out Bytes} {metaDec : Bytes → Out Metadata} {num : Nat → Bytes} {max : Nat} {ι : Type} {F : ι → Bytes → Bytes}

/-- Ciphertext and tag. -/
def sealed (E : Bytes → Bytes) (n ad m : Bytes) : Bytes := ctr E n m ++ tag E n ad (ctr E n m)

theorem encrypt_sealed (E : Bytes → Bytes) (n : Bytes) {ad m : Bytes} (hm : m.length ≤ limit) (ha : ad.length ≤ limit) : Gcm.encrypt E n ad m = .ok (sealed E n ad m) :=
  encrypt_eq_ok.2 ⟨hm, ha, rfl⟩

theorem decryptBlock_with (E : Bytes → Bytes) (uid : Bytes) (i : Nat) (c : Bytes) :
    (decryptHybridBlock (gcmWith metaEnc metaDec num) max E uid i c).toOption =
      if c.length < 28 ∨ max + 28 < c.length then none else (Gcm.decrypt E (c.take 12) (uid ++ num i) (c.drop 12)).toOption := by
  unfold decryptHybridBlock
  by_cases h1 : c = []
  · subst h1
    rfl
  · rw [if_neg (by simpa using h1)]
    by_cases h2 : max + 28 < c.length
    · rw [if_pos (show c.length > max + (gcmWith metaEnc metaDec num).overhead from h2), if_pos (Or.inr h2)]
      rfl
    · rw [if_neg (show ¬ c.length > max + (gcmWith metaEnc metaDec num).overhead from h2)]
      simp only [gcmWith]
      by_cases h3 : c.length < 28
      · rw [if_pos (Or.inr h3), if_pos (Or.inl h3)]
        rfl
      · rw [if_neg (by omega), if_neg (by omega)]

theorem readTail_with (E : Bytes → Bytes) (tail : Bytes) : readTail (gcmWith metaEnc metaDec num) E tail =
    if tail = [] then some .default
    else if tail.length < 16 ∨ tail.length - 16 < (ofBe32 ((tail.drop 12).take 4)).toNat then none
    else (Gcm.decrypt E (tail.take 12) [] ((tail.drop 16).take (ofBe32 ((tail.drop 12).take 4)).toNat)).toOption.bind fun mb => (metaDec mb).toOption := by
  unfold readTail
  by_cases h1 : tail = []
  · rw [if_pos h1, if_pos h1]
  · rw [if_neg h1, if_neg h1]
    have hl : (gcmWith metaEnc metaDec num).nonceLen = 12 := rfl
    rw [hl]
    by_cases h2 : tail.length < 16
    · rw [if_pos h2, if_pos (Or.inl h2)]
    · rw [if_neg h2]
      dsimp only
      rw [List.length_drop]
      by_cases h3 : tail.length - 16 < (ofBe32 ((tail.drop 12).take 4)).toNat
      · rw [if_pos h3, if_pos (Or.inr h3)]
      · rw [if_neg h3, if_neg (by omega)]
        have hd : (gcmWith metaEnc metaDec num).nonceDec (tail.take 12) = .ok ⟨tail.take 12, by rw [List.length_take]; omega⟩ := by
          simp only [gcmWith]
          rw [dif_pos]
        rw [hd]
        rfl

/-- The header under a function on blocks. -/
def hdrOf (metaEnc : Metadata → Out Bytes) (metaDec : Bytes → Out Metadata) (num : Nat → Bytes) (max : Nat) (E : Bytes → Bytes) (m : Option Metadata) (ν : AesNonce) :
    Option ((Bytes → Bytes) × Bytes) :=
  (encryptUnder (gcmWith metaEnc metaDec num) max E ⟨m, []⟩ fun _ => ν).toOption.map fun r => (E, r.1)

theorem hdrOf_cases (hF : ∀ i b, (F i b).length = 16) (m : Option Metadata) :
    (m = none ∧ ∀ i ν, hdrOf metaEnc metaDec num max (F i) m ν = some (F i, [])) ∨ (∀ i ν, hdrOf metaEnc metaDec num max (F i) m ν = none) ∨
      ∃ a mb, m = some a ∧ metaEnc a = .ok mb ∧ mb.length + 16 < 2 ^ 32 ∧
        ∀ i ν, hdrOf metaEnc metaDec num max (F i) m ν = some (F i, ν.val ++ be32 (mb.length + 16).toUInt32 ++ sealed (F i) ν.val [] mb) := by
  have hb : ∀ i (ν : AesNonce), (encryptBlocks (gcmWith metaEnc metaDec num) max (F i) (fun _ => ν) [] 1).toOption = some [] := fun _ _ => rfl
  cases m with
  | none =>
    refine .inl ⟨rfl, fun i ν => ?_⟩
    unfold hdrOf
    rw [encryptUnder_toOption]
    rfl
  | some a =>
    refine .inr ?_
    cases hm : metaEnc a with
    | ok mb =>
      by_cases hs : mb.length + 16 < 2 ^ 32
      · refine .inr ⟨a, mb, rfl, hm, hs, fun i ν => ?_⟩
        have hc : Gcm.encrypt (F i) ν.val [] mb = .ok (sealed (F i) ν.val [] mb) := encrypt_sealed _ _ (by unfold limit; omega) (by simp)
        have hl := encrypt_length (hF i) hc
        have hu : u32Len (sealed (F i) ν.val [] mb) = .ok (be32 (mb.length + 16).toUInt32) := by
          unfold u32Len
          rw [hl, if_pos hs]
        unfold hdrOf
        rw [encryptUnder_toOption]
        simp only [hm, Res.toOption_ok, Option.bind_some, hc, hu, Option.map_some, hb]
      · refine .inl fun i ν => ?_
        unfold hdrOf
        rw [encryptUnder_toOption]
        simp only [hm, Res.toOption_ok, Option.bind_some]
        cases hc : Gcm.encrypt (F i) ν.val [] mb with
        | ok c =>
          have := encrypt_length (hF i) hc
          have hu : (u32Len c).toOption = none := by
            unfold u32Len
            rw [if_neg (by omega)]
            rfl
          simp only [Res.toOption_ok, Option.bind_some, hu]
          rfl
        | err _ => rfl
        | panic => rfl
    | err _ =>
      refine .inl fun i ν => ?_
      unfold hdrOf
      rw [encryptUnder_toOption]
      simp only [hm]
      rfl
    | panic =>
      refine .inl fun i ν => ?_
      unfold hdrOf
      rw [encryptUnder_toOption]
      simp only [hm]
      rfl

/-- What is known of the ciphertexts received: the one of the header, and those of the blocks. -/
structure Known (metaDec : Bytes → Out Metadata) (num : Nat → Bytes) (F : ι → Bytes → Bytes) (S : Finset ι) (asked has : Bool) (md : Option Metadata)
    (blocks : List (Bytes × Nat × Bytes)) (seen : List Entry) : Prop where
  entry : ∀ e ∈ seen, (e.2.1 = [] ∧ ∃ a b, md = some a ∧ (∀ a', metaDec b = .ok a' → a' = a) ∧ ∀ i ∈ S, Gcm.decrypt (F i) e.1 e.2.1 e.2.2 = .ok b) ∨
    ∃ x ∈ blocks, x.2.1 < 2 ^ 64 ∧ e = blockEntry num x
  fresh : asked = false → seen = [] ∧ has = false

theorem Known.subset {S S' : Finset ι} {asked has : Bool} {md : Option Metadata} {blocks : List (Bytes × Nat × Bytes)} {seen : List Entry}
    (h : Known metaDec num F S asked has md blocks seen) (hs : S' ⊆ S) : Known metaDec num F S' asked has md blocks seen := by
  refine ⟨fun e he => ?_, h.fresh⟩
  rcases h.entry e he with ⟨h1, a, b, h2, h3, h4⟩ | h1
  · exact .inl ⟨h1, a, b, h2, h3, fun i hi => h4 i (hs hi)⟩
  · exact .inr h1

/-- The state of the game. -/
def stateOf (E : Bytes → Bytes) (asked has : Bool) (md : Option Metadata) (blocks : List (Bytes × Nat × Bytes)) : Session (Bytes → Bytes) :=
  ⟨asked, if has then some E else none, md, blocks⟩

/-- The probability of a forgery from some state on. -/
noncomputable def chance (metaEnc : Metadata → Out Bytes) (metaDec : Bytes → Out Metadata) (num : Nat → Bytes) (max : Nat) (A : Forger K Q QP) (E : Bytes → Bytes)
    (asked has : Bool) (md : Option Metadata) (blocks : List (Bytes × Nat × Bytes)) : ℝ :=
  prob (A.exec (gcmWith metaEnc metaDec num) max (fun _ _ => .pure none) (hdrOf metaEnc metaDec num max E) (stateOf E asked has md blocks))

theorem chance_nonneg (A : Forger K Q QP) (E : Bytes → Bytes) (asked has : Bool) (md : Option Metadata) (blocks : List (Bytes × Nat × Bytes)) :
    0 ≤ chance metaEnc metaDec num max A E asked has md blocks := prob_nonneg _

theorem chance_le_one (A : Forger K Q QP) (E : Bytes → Bytes) (asked has : Bool) (md : Option Metadata) (blocks : List (Bytes × Nat × Bytes)) :
    chance metaEnc metaDec num max A E asked has md blocks ≤ 1 := prob_le_one _

theorem prob_true : prob (PMF.pure true) = 1 := by simp [prob]

theorem prob_false : prob (PMF.pure false) = 0 := by simp [prob]

theorem prob_uniform_const {α : Type} [Fintype α] [Nonempty α] (p : PMF Bool) : prob ((PMF.uniformOfFintype α).bind fun _ => p) = prob p := by
  rw [PMF.bind_const]

/-- The nonces which are taken. -/
theorem card_used (used : List Bytes) : ((Finset.univ.filter fun ν : AesNonce => ν.val ∈ used).card : ℝ) ≤ used.length / 2 ^ 96 * Fintype.card AesNonce := by
  have h : (Finset.univ.filter fun ν : AesNonce => ν.val ∈ used).card ≤ used.length := by
    classical
    refine (Finset.card_le_card_of_injOn (t := used.toFinset) (fun ν => ν.val) (fun ν hν => ?_) fun a _ b _ h => Subtype.ext h).trans (List.toFinset_card_le used)
    simpa using hν
  rw [card_nonce, Nat.cast_pow, Nat.cast_two, div_mul_cancel₀ _ (by positivity)]
  exact_mod_cast h

/-- A draw of a nonce and a request under it. -/
theorem draw_ask {v q : Nat} {L : Nat} (hq : 0 < q) {used : List Bytes} (S : Finset ι) (f : AesNonce → ι → ℝ) (h0 : ∀ ν i, 0 ≤ f ν i) (h1 : ∀ ν i, f ν i ≤ 1)
    (seen : List Entry) {ad m : Bytes} (h3 : m.length ≤ maxClear) (h4 : ad.length ≤ limit) (h5 : units ad + units m ≤ L)
    (h : ∀ ν : AesNonce, ν.val ∉ used → ∀ c, ∃ G : Gcm.Forger, G.Proper L v (ν.val :: used) ∧ ∑ i ∈ S.filter (fun i => sealed (F i) ν.val ad m = c), f ν i ≤
      ∑ i ∈ S.filter (fun i => sealed (F i) ν.val ad m = c), (win F G ((ν.val, ad, c) :: seen) i + cost (q - 1) (used.length + 1))) :
    ∃ G : Gcm.Forger, G.Proper L v used ∧ ∑ i ∈ S, (∑ ν, f ν i) / Fintype.card AesNonce ≤ ∑ i ∈ S, (win F G seen i + cost q used.length) := by
  obtain ⟨G, hG, hs⟩ := draw_best S f h0 h1 (Finset.univ.filter fun ν : AesNonce => ν.val ∈ used) (card_used used) (fun G : Gcm.Forger => G.Proper L v used)
    (fun G i => win F G seen i + cost (q - 1) (used.length + 1)) (fun G _ i => add_nonneg (win_nonneg F G seen i) (cost_nonneg _ _)) (fun ν hν => by
      have hν' : ν.val ∉ used := by simpa using hν
      exact ask_step F S (f ν) _ seen (fun i => sealed (F i) ν.val ad m) (fun i => encrypt_sealed _ _ (h3.trans (by unfold maxClear limit; omega)) h4) ν.2 hν' h3 h4 h5
        (h ν hν')) ⟨.stop, trivial⟩
  refine ⟨G, hG, hs.trans (le_of_eq (Finset.sum_congr rfl fun i _ => ?_))⟩
  rw [add_assoc, cost_step hq]

theorem weaken {G : Gcm.Forger} {S : Finset ι} {f : ι → ℝ} {seen : List Entry} {k k' : ℝ} (h : ∑ i ∈ S, f i ≤ ∑ i ∈ S, (win F G seen i + k)) (hk : k ≤ k') :
    ∑ i ∈ S, f i ≤ ∑ i ∈ S, (win F G seen i + k') :=
  h.trans (Finset.sum_le_sum fun _ _ => add_le_add_right hk _)

theorem Proper.mono {L : Nat} : ∀ {G : Gcm.Forger} {v v' : Nat} {used : List Bytes}, G.Proper L v used → v ≤ v' → G.Proper L v' used
  | .stop, _, _, _, _, _ => trivial
  | .ask _ _ _ _, _, _, _, ⟨h1, h2, h3, h4, h5, h6⟩, hv => ⟨h1, h2, h3, h4, h5, fun c => Proper.mono (h6 c) hv⟩
  | .submit _ _ _ _, _, _, _, ⟨h1, h2, h3, h4⟩, hv => ⟨h1, h2, by omega, fun m => Proper.mono (h4 m) (by omega)⟩

/-- Whoever forges hybrid messages under functions on blocks, of which nothing is known but the ciphertexts received, forges ciphertexts, if no nonce is drawn twice. -/
theorem forger_bound (hmax : max ≤ maxClear) (hn : ∀ i, (num i).length = 8) (hinj : ∀ i < 2 ^ 64, ∀ j < 2 ^ 64, num i = num j → i = j)
    (hF : ∀ i b, (F i b).length = 16) {L : Nat} :
    ∀ (A : Forger K Q QP) (q v : Nat), A.Within metaEnc metaDec L q v → ∀ (used : List Bytes) (S : Finset ι) (asked has : Bool) (md : Option Metadata)
      (blocks : List (Bytes × Nat × Bytes)) (seen : List Entry), Known metaDec num F S asked has md blocks seen →
      ∃ G : Gcm.Forger, G.Proper L v used ∧
        ∑ i ∈ S, chance metaEnc metaDec num max A (F i) asked has md blocks ≤ ∑ i ∈ S, (win F G seen i + cost q used.length) := by
  intro A
  induction A with
  | stop =>
    intro q v _ used S asked has md blocks seen _
    refine ⟨.stop, trivial, Finset.sum_le_sum fun i _ => ?_⟩
    unfold chance
    rw [Forger.exec, prob_false]
    exact add_nonneg (win_nonneg F _ _ _) (cost_nonneg _ _)
  | choose n next ih =>
    intro q v hw used S asked has md blocks seen hk
    obtain ⟨G, hG, hs⟩ := draw_best S (fun x i => chance metaEnc metaDec num max (next x) (F i) asked has md blocks) (fun _ _ => chance_nonneg _ _ _ _ _ _)
      (fun _ _ => chance_le_one _ _ _ _ _ _) ∅ (k := 0) (by simp) (fun G : Gcm.Forger => G.Proper L v used) (fun G i => win F G seen i + cost q used.length)
      (fun G _ i => add_nonneg (win_nonneg F G seen i) (cost_nonneg _ _)) (fun x _ => ih x q v (hw x) used S asked has md blocks seen hk) ⟨.stop, trivial⟩
    refine ⟨G, hG, ?_⟩
    simp only [add_zero] at hs
    refine le_trans (le_of_eq (Finset.sum_congr rfl fun i _ => ?_)) hs
    unfold chance
    rw [Forger.exec, prob_uniform]
  | key p ap next ih =>
    intro q v hw used S asked has md blocks seen hk
    obtain ⟨G, hG, hs⟩ := ih none q v (hw none) used S asked has md blocks seen hk
    refine ⟨G, hG, le_trans (le_of_eq (Finset.sum_congr rfl fun i _ => ?_)) hs⟩
    unfold chance
    rw [Forger.exec, PMF.pure_bind]
  | header m next ih =>
    intro q v hw used S asked has md blocks seen hk
    obtain ⟨hq, hlen, hw⟩ := hw
    cases asked with
    | true =>
      obtain ⟨G, hG, hs⟩ := ih none (q - 1) v (hw none) used S true has md blocks seen hk
      refine ⟨G, hG, le_trans (le_of_eq (Finset.sum_congr rfl fun i _ => ?_)) (weaken hs (cost_mono hq _))⟩
      unfold chance
      rw [Forger.exec, if_pos (show (stateOf (F i) true has md blocks).asked = true from rfl)]
    | false =>
      have hseen := (hk.fresh rfl).1
      subst hseen
      have hexec : ∀ i, chance metaEnc metaDec num max (.header m next) (F i) false has md blocks =
          prob ((PMF.uniformOfFintype AesNonce).bind fun ν => (next ((hdrOf metaEnc metaDec num max (F i) m ν).map Prod.snd)).exec (gcmWith metaEnc metaDec num) max
            (fun _ _ => .pure none) (hdrOf metaEnc metaDec num max (F i))
            { asked := true, key := (hdrOf metaEnc metaDec num max (F i) m ν).map Prod.fst, metaData := m, blocks := [] }) := by
        intro i
        unfold chance
        rw [Forger.exec, if_neg (by simp [stateOf])]
      have hempty : ∀ has, Known metaDec num F S true has m [] [] := fun _ => ⟨by simp, by simp⟩
      rcases hdrOf_cases (metaEnc := metaEnc) (metaDec := metaDec) (num := num) (max := max) hF m with ⟨hm, hh⟩ | hh | ⟨a, mb, hm, hmb, hsz, hh⟩
      · obtain ⟨G, hG, hs⟩ := ih (some []) (q - 1) v (hw _) used S true true m [] [] (hempty _)
        refine ⟨G, hG, le_trans (le_of_eq (Finset.sum_congr rfl fun i _ => ?_)) (weaken hs (cost_mono hq _))⟩
        rw [hexec i]
        simp only [hh, Option.map_some]
        exact prob_uniform_const _
      · obtain ⟨G, hG, hs⟩ := ih none (q - 1) v (hw _) used S true false m [] [] (hempty _)
        refine ⟨G, hG, le_trans (le_of_eq (Finset.sum_congr rfl fun i _ => ?_)) (weaken hs (cost_mono hq _))⟩
        rw [hexec i]
        simp only [hh, Option.map_none]
        exact prob_uniform_const _
      · have hf : ∀ i, chance metaEnc metaDec num max (.header m next) (F i) false has md blocks = (∑ ν : AesNonce,
            chance metaEnc metaDec num max (next (some (ν.val ++ be32 (mb.length + 16).toUInt32 ++ sealed (F i) ν.val [] mb))) (F i) true true m []) /
              Fintype.card AesNonce := by
          intro i
          rw [hexec i, prob_uniform]
          simp only [hh, Option.map_some]
          rfl
        simp only [hf]
        refine draw_ask hq S (fun ν i => chance metaEnc metaDec num max (next (some (ν.val ++ be32 (mb.length + 16).toUInt32 ++ sealed (F i) ν.val [] mb))) (F i) true true m [])
          (fun _ _ => chance_nonneg _ _ _ _ _ _) (fun _ _ => chance_le_one _ _ _ _ _ _) [] (ad := []) (m := mb) (by unfold maxClear; omega) (by simp)
          (by have := (hlen a mb hm hmb).1; simpa [units] using this) fun ν hν c => ?_
        obtain ⟨G, hG, hs⟩ := ih (some (ν.val ++ be32 (mb.length + 16).toUInt32 ++ c)) (q - 1) v (hw _) (ν.val :: used)
          (S.filter fun i => sealed (F i) ν.val [] mb = c) true true m [] [(ν.val, [], c)] ⟨fun e he => by
            rw [List.mem_singleton] at he
            subst he
            refine .inl ⟨rfl, a, mb, hm, (hlen a mb hm hmb).2, fun i hi => ?_⟩
            rw [Finset.mem_filter] at hi
            rw [← hi.2]
            exact (decrypt_eq_ok (hF i)).2 (encrypt_sealed _ _ (by unfold limit; omega) (by simp)), by simp⟩
        refine ⟨G, hG, le_trans (le_of_eq (Finset.sum_congr rfl fun i hi => ?_)) hs⟩
        rw [Finset.mem_filter] at hi
        rw [hi.2]
  | block uid n p next ih =>
    intro q v hw used S asked has md blocks seen hk
    obtain ⟨hq, hu, hn64, hL, hw⟩ := hw
    have had : ¬ limit < (uid ++ num n).length := by rw [List.length_append, hn]; omega
    by_cases hno : has = false ∨ p = [] ∨ max < p.length
    · obtain ⟨G, hG, hs⟩ := ih none (q - 1) v (hw _) used S asked has md blocks seen hk
      refine ⟨G, hG, le_trans (le_of_eq (Finset.sum_congr rfl fun i _ => ?_)) (weaken hs (cost_mono hq _))⟩
      have hb : ∀ ν, ((stateOf (F i) asked has md blocks).key.bind fun k => (encryptHybridBlock (gcmWith metaEnc metaDec num) max k uid n p ν).toOption) = none := by
        intro ν
        rcases hno with rfl | hno
        · rfl
        · cases has with
          | false => rfl
          | true =>
            change (encryptHybridBlock (gcmWith metaEnc metaDec num) max (F i) uid n p ν).toOption = none
            rw [encryptBlock_with _ _ _ _ _ hmax, if_pos (by tauto)]
      unfold chance
      rw [Forger.exec]
      simp only [hb]
      exact prob_uniform_const _
    · push Not at hno
      obtain ⟨hhas, hp, hpl⟩ := hno
      have hhas : has = true := by simpa using hhas
      subst hhas
      have hf : ∀ i, chance metaEnc metaDec num max (.block uid n p next) (F i) asked true md blocks = (∑ ν : AesNonce,
          chance metaEnc metaDec num max (next (some (ν.val ++ sealed (F i) ν.val (uid ++ num n) p))) (F i) asked true md
            ((uid, n, ν.val ++ sealed (F i) ν.val (uid ++ num n) p) :: blocks)) / Fintype.card AesNonce := by
        intro i
        have hb : ∀ ν, ((stateOf (F i) asked true md blocks).key.bind fun k => (encryptHybridBlock (gcmWith metaEnc metaDec num) max k uid n p ν).toOption) =
            some (ν.val ++ sealed (F i) ν.val (uid ++ num n) p) := by
          intro ν
          change (encryptHybridBlock (gcmWith metaEnc metaDec num) max (F i) uid n p ν).toOption = _
          rw [encryptBlock_with _ _ _ _ _ hmax, if_neg (by rintro (h | h | h); exacts [hp h, by omega, had h])]
          rfl
        unfold chance
        rw [Forger.exec, prob_uniform]
        simp only [hb]
        rfl
      simp only [hf]
      refine draw_ask hq S (fun ν i => chance metaEnc metaDec num max (next (some (ν.val ++ sealed (F i) ν.val (uid ++ num n) p))) (F i) asked true md
          ((uid, n, ν.val ++ sealed (F i) ν.val (uid ++ num n) p) :: blocks))
        (fun _ _ => chance_nonneg _ _ _ _ _ _) (fun _ _ => chance_le_one _ _ _ _ _ _) seen (ad := uid ++ num n) (m := p) (by omega) (by omega)
        (by rw [units, units, List.length_append, hn]; exact hL) fun ν hν c => ?_
      have hasked : asked = true := by
        cases asked with
        | true => rfl
        | false => exact absurd (hk.fresh rfl).2 (by simp)
      obtain ⟨G, hG, hs⟩ := ih (some (ν.val ++ c)) (q - 1) v (hw _) (ν.val :: used) (S.filter fun i => sealed (F i) ν.val (uid ++ num n) p = c) asked true md
        ((uid, n, ν.val ++ c) :: blocks) ((ν.val, uid ++ num n, c) :: seen) ⟨fun e he => by
          rcases List.mem_cons.1 he with rfl | he
          · refine .inr ⟨_, List.mem_cons_self, hn64, ?_⟩
            simp only [blockEntry]
            rw [List.take_left' ν.2, List.drop_left' ν.2]
          · rcases hk.entry e he with ⟨h1, a, b, h2, h3, h4⟩ | ⟨x, hx, h⟩
            · exact .inl ⟨h1, a, b, h2, h3, fun i hi => h4 i (Finset.mem_filter.1 hi).1⟩
            · exact .inr ⟨x, List.mem_cons_of_mem _ hx, h⟩, by simp [hasked]⟩
      refine ⟨G, hG, le_trans (le_of_eq (Finset.sum_congr rfl fun i hi => ?_)) hs⟩
      rw [Finset.mem_filter] at hi
      rw [hi.2]
  | tryBlock uid n b next ih =>
    intro q v hw used S asked has md blocks seen hk
    obtain ⟨hv, hu, hn64, hL, hw⟩ := hw
    by_cases hno : has = false ∨ b.length < 28 ∨ max + 28 < b.length
    · obtain ⟨G, hG, hs⟩ := ih none q (v - 1) (hw _) used S asked has md blocks seen hk
      refine ⟨G, Proper.mono hG (by omega), le_trans (le_of_eq (Finset.sum_congr rfl fun i _ => ?_)) hs⟩
      have hb : ((stateOf (F i) asked has md blocks).key.bind fun k => (decryptHybridBlock (gcmWith metaEnc metaDec num) max k uid n b).toOption) = none := by
        rcases hno with rfl | hno
        · rfl
        · cases has with
          | false => rfl
          | true =>
            change (decryptHybridBlock (gcmWith metaEnc metaDec num) max (F i) uid n b).toOption = none
            rw [decryptBlock_with, if_pos hno]
      unfold chance
      rw [Forger.exec]
      simp only [hb]
    · push Not at hno
      obtain ⟨hhas, hb1, hb2⟩ := hno
      have hhas : has = true := by simpa using hhas
      subst hhas
      refine submit_step F (n := b.take 12) (ad := uid ++ num n) (c := b.drop 12) S _ _ seen (by rw [List.length_take]; omega) ?_ hv fun r => ?_
      · rw [units, units, List.length_append, hn, List.length_take, List.length_drop, show min (b.length - 12 - 16) (b.length - 12) = b.length - 28 by omega]
        exact hL
      · have hb : ∀ i, ((stateOf (F i) asked true md blocks).key.bind fun k => (decryptHybridBlock (gcmWith metaEnc metaDec num) max k uid n b).toOption) =
            (Gcm.decrypt (F i) (b.take 12) (uid ++ num n) (b.drop 12)).toOption := by
          intro i
          change (decryptHybridBlock (gcmWith metaEnc metaDec num) max (F i) uid n b).toOption = _
          rw [decryptBlock_with, if_neg (by omega)]
        obtain ⟨G, hG, hs⟩ := ih r q (v - 1) (hw _) used (S.filter fun i => (Gcm.decrypt (F i) (b.take 12) (uid ++ num n) (b.drop 12)).toOption = r) asked true md blocks
          seen (hk.subset (Finset.filter_subset _ S))
        refine ⟨G, hG, ?_⟩
        by_cases hmem : r ≠ none ∧ (b.take 12, uid ++ num n, b.drop 12) ∉ seen
        · refine Finset.sum_le_sum fun i _ => ?_
          rw [if_pos hmem]
          exact (chance_le_one _ _ _ _ _ _).trans (le_add_of_nonneg_right (cost_nonneg _ _))
        · simp only [if_neg hmem]
          refine le_trans (le_of_eq (Finset.sum_congr rfl fun i hi => ?_)) hs
          rw [Finset.mem_filter] at hi
          unfold chance
          rw [Forger.exec]
          simp only [hb, hi.2]
          cases r with
          | none => rfl
          | some x =>
            have hin : (b.take 12, uid ++ num n, b.drop 12) ∈ seen := by simpa using hmem
            have hbl : (uid, n, b) ∈ blocks := by
              rcases hk.entry _ hin with ⟨h, _⟩ | ⟨x, hx, h1, h2⟩
              · have := congrArg List.length h
                simp [hn] at this
              · have : (uid, n, b) = x := blockEntry_inj hn hinj hn64 h1 h2
                rw [this]
                exact hx
            simp only
            rw [if_pos (show (uid, n, b) ∈ (stateOf (F i) asked true md blocks).blocks from hbl)]
  | tryTail tail next ih =>
    intro q v hw used S asked has md blocks seen hk
    obtain ⟨hv, hL, hw⟩ := hw
    by_cases hno : has = false ∨ tail = [] ∨ tail.length < 16 ∨ tail.length - 16 < (ofBe32 ((tail.drop 12).take 4)).toNat
    · obtain ⟨r, hr, hrd⟩ : ∃ r : Option Metadata, (∀ m, r = some m → m = .default) ∧
          ∀ i, ((stateOf (F i) asked has md blocks).key.bind fun k => readTail (gcmWith metaEnc metaDec num) k tail) = r := by
        cases has with
        | false => exact ⟨none, by simp, fun i => rfl⟩
        | true =>
          by_cases ht : tail = []
          · refine ⟨some .default, by simp, fun i => ?_⟩
            change readTail (gcmWith metaEnc metaDec num) (F i) tail = _
            rw [readTail_with, if_pos ht]
          · refine ⟨none, by simp, fun i => ?_⟩
            change readTail (gcmWith metaEnc metaDec num) (F i) tail = _
            rw [readTail_with, if_neg ht, if_pos (by simpa [ht] using hno)]
      obtain ⟨G, hG, hs⟩ := ih r q (v - 1) (hw _) used S asked has md blocks seen hk
      refine ⟨G, Proper.mono hG (by omega), le_trans (le_of_eq (Finset.sum_congr rfl fun i _ => ?_)) hs⟩
      unfold chance
      rw [Forger.exec]
      simp only [hrd]
      cases r with
      | none => rfl
      | some m =>
        simp only
        rw [if_pos (Or.inl (hr m rfl))]
    · push Not at hno
      obtain ⟨hhas, ht, ht1, ht2⟩ := hno
      have hhas : has = true := by simpa using hhas
      subst hhas
      have hb : ∀ i, ((stateOf (F i) asked true md blocks).key.bind fun k => readTail (gcmWith metaEnc metaDec num) k tail) =
          (Gcm.decrypt (F i) (tail.take 12) [] ((tail.drop 16).take (ofBe32 ((tail.drop 12).take 4)).toNat)).toOption.bind fun mb => (metaDec mb).toOption := by
        intro i
        change readTail (gcmWith metaEnc metaDec num) (F i) tail = _
        rw [readTail_with, if_neg ht, if_neg (by omega)]
      generalize (ofBe32 ((tail.drop 12).take 4)).toNat = size at *
      refine submit_step F (n := tail.take 12) (ad := []) (c := (tail.drop 16).take size) S _ _ seen (by rw [List.length_take]; omega) ?_ hv fun r => ?_
      · simp only [units, List.length_take, List.length_drop, List.length_nil]
        have : (min (min size (tail.length - 16) - 16) (min size (tail.length - 16)) + 15) / 16 ≤ (tail.length - 32 + 15) / 16 := Nat.div_le_div_right (by omega)
        omega
      · obtain ⟨G, hG, hs⟩ := ih (r.bind fun mb => (metaDec mb).toOption) q (v - 1) (hw _) used
          (S.filter fun i => (Gcm.decrypt (F i) (tail.take 12) [] ((tail.drop 16).take size)).toOption = r) asked true md blocks seen
          (hk.subset (Finset.filter_subset _ S))
        refine ⟨G, hG, ?_⟩
        by_cases hmem : r ≠ none ∧ (tail.take 12, [], (tail.drop 16).take size) ∉ seen
        · refine Finset.sum_le_sum fun i _ => ?_
          rw [if_pos hmem]
          exact (chance_le_one _ _ _ _ _ _).trans (le_add_of_nonneg_right (cost_nonneg _ _))
        · simp only [if_neg hmem]
          refine le_trans (le_of_eq (Finset.sum_congr rfl fun i hi => ?_)) hs
          rw [Finset.mem_filter] at hi
          unfold chance
          rw [Forger.exec]
          simp only [hb, hi.2]
          cases r with
          | none => rfl
          | some mb =>
            have hin : (tail.take 12, [], (tail.drop 16).take size) ∈ seen := by simpa using hmem
            simp only [Option.bind_some]
            cases hmd : metaDec mb with
            | err _ => rfl
            | panic => rfl
            | ok m' =>
              have hcase : md = some m' := by
                rcases hk.entry _ hin with ⟨_, a, b', h1, h2, h3⟩ | ⟨x, hx, h1, h2⟩
                · have h4 := h3 i hi.1
                  have h5 := hi.2
                  simp only at h4
                  rw [h4, Res.toOption_ok, Option.some.injEq] at h5
                  subst h5
                  rw [h1, h2 m' hmd]
                · have := congrArg (fun e : Entry => e.2.1.length) h2
                  simp [blockEntry, hn] at this
              simp only [Res.toOption_ok]
              rw [if_pos (Or.inr (show (stateOf (F i) asked true md blocks).metaData = some m' from hcase))]

end messages

/-! ## The test -/

section test

variable {metaEnc : Metadata → Out Bytes} {metaDec : Bytes → Out Metadata} {num : Nat → Bytes} {max : Nat}

/-- A forgery under a random function. -/
theorem forgeryTest_random (hmax : max ≤ maxClear) (hn : ∀ i, (num i).length = 8) (hinj : ∀ i < 2 ^ 64, ∀ j < 2 ^ 64, num i = num j → i = j) {L q v : Nat}
    {A : Forger K Q QP} (hA : A.Within metaEnc metaDec L q v) :
    prob (randomFunction.bind fun E => forgeryTest (gcmWith metaEnc metaDec num) max A (onBytes E)) ≤ v * (L + 1) / 2 ^ 128 + q * (q - 1) / 2 ^ 97 := by
  classical
  obtain ⟨G, hG, hs⟩ := forger_bound (F := onBytes) hmax hn hinj onBytes_length A q v hA [] Finset.univ false false none [] [] ⟨by simp, by simp⟩
  have h := prob_uniform_le (fun E : Blk → Blk => forgeryTest (gcmWith metaEnc metaDec num) max A (onBytes E)) (fun E => G.Wins (onBytes E) []) (k := v * (L + 1))
    (B := 2 ^ 128) (by positivity) (cost q 0) (by
      refine le_trans (le_trans (le_of_eq (Finset.sum_congr rfl fun E _ => ?_)) hs) (le_of_eq (Finset.sum_congr rfl fun E _ => ?_))
      · rfl
      · unfold win
        congr 1) (by
      refine le_trans (le_of_eq ?_) ((forger_card hG).trans (le_of_eq (Nat.mul_assoc _ _ _).symm))
      congr)
  unfold randomFunction
  refine h.trans (le_of_eq ?_)
  unfold cost
  push_cast
  rw [mul_zero, zero_add]
  norm_num

variable {Key Key' Nonce : Type} [Fintype Nonce] [Nonempty Nonce]

/-- The game is the same with keys of another kind, if the functions of the scheme are. -/
theorem exec_map (e : External Key Nonce) (e' : External Key' Nonce) (φ : Key → Key')
    (henc : ∀ k uid i p n, encryptHybridBlock e max k uid i p n = encryptHybridBlock e' max (φ k) uid i p n)
    (hdec : ∀ k uid i b, decryptHybridBlock e max k uid i b = decryptHybridBlock e' max (φ k) uid i b) (hread : ∀ k b, readTail e k b = readTail e' (φ k) b)
    (keys : Policy → AccessPolicy → PMF (Option (DecryptionKey K QP Q))) (hdr : Option Metadata → Nonce → Option (Key × Bytes)) :
    ∀ (A : Forger K Q QP) (σ : Session Key), A.exec e max keys hdr σ =
      A.exec e' max keys (fun m ν => (hdr m ν).map fun r => (φ r.1, r.2)) ⟨σ.asked, σ.key.map φ, σ.metaData, σ.blocks⟩ := by
  intro A
  induction A with
  | stop => intro σ; rfl
  | choose n next ih =>
    intro σ
    simp only [Forger.exec, ih]
  | key p ap next ih =>
    intro σ
    simp only [Forger.exec, ih]
  | header m next ih =>
    intro σ
    simp only [Forger.exec, ih, Option.map_map]
    rfl
  | block uid n p next ih =>
    intro σ
    simp only [Forger.exec]
    congr 1; funext ν
    have hb : ((σ.key.map φ).bind fun k => (encryptHybridBlock e' max k uid n p ν).toOption) = σ.key.bind fun k => (encryptHybridBlock e max k uid n p ν).toOption := by
      cases σ.key with
      | none => rfl
      | some k => simp only [Option.map_some, Option.bind_some, henc]
    rw [hb]
    cases (σ.key.bind fun k => (encryptHybridBlock e max k uid n p ν).toOption) <;> simp only [ih]
  | tryBlock uid n b next ih =>
    intro σ
    simp only [Forger.exec]
    have hb : ((σ.key.map φ).bind fun k => (decryptHybridBlock e' max k uid n b).toOption) = σ.key.bind fun k => (decryptHybridBlock e max k uid n b).toOption := by
      cases σ.key with
      | none => rfl
      | some k => simp only [Option.map_some, Option.bind_some, hdec]
    rw [hb]
    cases (σ.key.bind fun k => (decryptHybridBlock e max k uid n b).toOption) <;> simp only [ih]
  | tryTail tail next ih =>
    intro σ
    simp only [Forger.exec]
    have hb : ((σ.key.map φ).bind fun k => readTail e' k tail) = σ.key.bind fun k => readTail e k tail := by
      cases σ.key with
      | none => rfl
      | some k => simp only [Option.map_some, Option.bind_some, hread]
    rw [hb]
    cases (σ.key.bind fun k => readTail e k tail) <;> simp only [ih]

end test

end Abe

import Verif.Spec.HybridGame
import Verif.Spec.Nonces
import Verif.Props.DelegationGame
import Verif.Props.Hybrid

/-!
# Confidentiality of hybrid messages

Property C82.
-/

set_option linter.unusedSectionVars false

namespace Abe

variable {K P Q QP T Key Nonce : Type} [Field K] [DecidableEq K] [AddCommGroup P] [Module K P] [AddCommGroup Q] [Module K Q]
  [AddCommGroup T] [Module K T]

/-! ### A hybrid message is an encapsulation and a symmetric message -/

/-- The bytes of an encapsulation in a header. -/
def capsuleBytes (cs : Codecs K P Q T) (t : Target) (ct : Option (CipherText P T)) : Option Bytes :=
  ct.bind fun ct => (((cipherTextCodec t cs).enc ct).toOption).bind fun cap => (u32Len cap).toOption.map (· ++ cap)

/-- An encapsulation and a symmetric message. -/
def assemble (cap : Option Bytes) (r : Option (Bytes × List Bytes)) : Option (Bytes × List Bytes) := cap.bind fun cap => r.map fun r => (cap ++ r.1, r.2)

/-- A message under the key derived from an element. -/
def symmetricPart (e : External Key Nonce) (cs : Codecs K P Q T) (max : Nat) (random : T) (msg : HybridMsg) (nonce : Nat → Nonce) : Option (Bytes × List Bytes) :=
  (derivedKey e cs random).bind fun kb => (encryptSymmetric e max kb msg nonce).toOption

theorem Res.toOption_bind {ε α β : Type} (x : Res ε α) (f : α → Res ε β) : (x >>= f).toOption = x.toOption.bind fun a => (f a).toOption := by
  cases x <;> rfl

theorem Res.toOption_ok {ε α : Type} (a : α) : (Res.ok a : Res ε α).toOption = some a := rfl

theorem encryptHybrid_split (e : External Key Nonce) (c : Curve K P Q QP T) (cs : Codecs K P Q T) (t : Target) (max : Nat) (p : Policy)
    (pub : MasterPublicKey P T) (attrs : List Attribute) (msg : HybridMsg) (random : T) (s : K) (nonce : Nat → Nonce) :
    (encryptHybrid e c cs t max p pub attrs msg random s nonce).toOption =
      assemble (capsuleBytes cs t (engineEncrypt (bls c) t p pub attrs random s).toOption) (symmetricPart e cs max random msg nonce) := by
  obtain ⟨m, bs⟩ := msg
  unfold encryptHybrid encryptHybridHeader generateSymmetricKey assemble capsuleBytes symmetricPart derivedKey encryptSymmetric
  simp only [Res.toOption_bind]
  cases (engineEncrypt (bls c) t p pub attrs random s).toOption with
  | none => rfl
  | some ct =>
    simp only [Option.bind_some]
    cases ((cipherTextCodec t cs).enc ct).toOption with
    | none => rfl
    | some cap =>
      simp only [Option.bind_some]
      cases (cs.gt.enc random).toOption with
      | none => simp only [Option.bind_none, Option.map_none, Option.bind_fun_none]
      | some b =>
        simp only [Option.bind_some, Option.map_some, Res.toOption_ok]
        cases (e.keyDec (e.shake b e.keyLen)).toOption with
        | none => simp only [Option.bind_none, Option.map_none, Option.bind_fun_none]
        | some key =>
          simp only [Option.bind_some]
          cases (u32Len cap).toOption with
          | none => rfl
          | some sz =>
            simp only [Option.bind_some, Option.map_some]
            cases m with
            | none =>
              simp only [Res.toOption_ok, Option.bind_some]
              cases (encryptBlocks e max key nonce bs 1).toOption <;> simp
            | some m =>
              simp only [Res.toOption_bind]
              cases (e.metaEnc m).toOption with
              | none => rfl
              | some mb =>
                simp only [Option.bind_some]
                cases (e.encrypt key mb (nonce 0) none).toOption with
                | none => rfl
                | some em =>
                  simp only [Option.bind_some]
                  cases (u32Len em).toOption with
                  | none => rfl
                  | some sz' =>
                    simp only [Option.bind_some, Res.toOption_ok]
                    cases (encryptBlocks e max key nonce bs 1).toOption <;> simp

/-! ### The reductions -/

/-- A draw from any finite type. -/
noncomputable def Attacker.draw (α : Type) [Fintype α] [Nonempty α] (next : α → Attacker K P Q QP T) : Attacker K P Q QP T :=
  .choose (Fintype.card α - 1) fun i => next (((finCongr (Nat.sub_add_cancel Fintype.card_pos)).trans (Fintype.equivFin α).symm) i)

theorem Attacker.exec_draw [Fintype K] {α : Type} [Fintype α] [Nonempty α] (next : α → Attacker K P Q QP T)
    (keys : Policy → AccessPolicy → PMF (Option (DecryptionKey K QP Q))) (chal : T → T → Option (CipherText P T)) (used : Bool) :
    (Attacker.draw α next).exec keys chal used = (PMF.uniformOfFintype α).bind fun a => (next a).exec keys chal used := by
  unfold Attacker.draw
  simp only [Attacker.exec]
  exact uniform_bind_equiv ((finCongr (Nat.sub_add_cancel Fintype.card_pos)).trans (Fintype.equivFin α).symm) fun a => (next a).exec keys chal used

/-- The attacker on the scheme: it draws two elements and a bit, asks for the encryption of one of the elements, and runs the given attacker with a message under the
key derived from the second. -/
noncomputable def HybridAttacker.lower [Fintype Nonce] [Nonempty Nonce] (e : External Key Nonce) (c : Curve K P Q QP T) (cs : Codecs K P Q T) (t : Target)
    (max : Nat) (x0 x1 : K) (b : Bool) : HybridAttacker K Q QP → (used : Bool) → Attacker K P Q QP T
  | .guess g, _ => .guess (g == b)
  | .toss next, used => .toss fun x => (next x).lower e c cs t max x0 x1 b used
  | .choose n next, used => .choose n fun x => (next x).lower e c cs t max x0 x1 b used
  | .key p ap next, used => .key p ap fun k => (next k).lower e c cs t max x0 x1 b used
  | .challenge m0 m1 next, used =>
    if used then (next none).lower e c cs t max x0 x1 b true
    else .challenge (x0 • c.genT) (x1 • c.genT) fun ct => .draw (Fin ((if b then m1 else m0).blocks.length + 1) → Nonce) fun ν =>
      (next (assemble (capsuleBytes cs t ct) (symmetricPart e cs max (x1 • c.genT) (if b then m1 else m0) (padNonce ν)))).lower e c cs t max x0 x1 b true

noncomputable def kemAttacker [Fintype Nonce] [Nonempty Nonce] (e : External Key Nonce) (c : Curve K P Q QP T) (cs : Codecs K P Q T) (t : Target) (max : Nat)
    (A : MasterPublicKey P T → DelegationKey Q → HybridAttacker K Q QP) (pk : MasterPublicKey P T) (dk : DelegationKey Q) : Attacker K P Q QP T :=
  .toss fun x0 => .toss fun x1 => .draw Bool fun b => (A pk dk).lower e c cs t max x0 x1 b false

/-- What an attacker does before the challenge, as an attacker on the symmetric scheme. -/
noncomputable def HybridAttacker.stage [Fintype K] (keys : Policy → AccessPolicy → PMF (Option (DecryptionKey K QP Q))) (cap : Option Bytes) :
    HybridAttacker K Q QP → SymmetricAttacker
  | .guess g => .pure (⟨none, []⟩, ⟨none, []⟩, fun _ => .pure g)
  | .toss next => (PMF.uniformOfFintype K).bind fun x => (next x).stage keys cap
  | .choose _ next => (PMF.uniformOfFintype _).bind fun x => (next x).stage keys cap
  | .key p ap next => (keys p ap).bind fun k => (next k).stage keys cap
  | .challenge m0 m1 next => .pure (m0, m1, fun r => (next (assemble cap r)).exec keys (fun _ _ => .pure none) true)

/-- The attacker on the symmetric scheme: it makes a master key, answers the requests for keys itself, and puts the encapsulation of another element into the header. -/
noncomputable def demAttacker [Fintype K] (c : Curve K P Q QP T) (cs : Codecs K P Q T) (t : Target) (size : Nat) (p : Policy)
    (attrs : List Attribute) (A : MasterPublicKey P T → DelegationKey Q → HybridAttacker K Q QP) : SymmetricAttacker :=
  (PMF.uniformOfFintype K).bind fun s => (PMF.uniformOfFintype K).bind fun y => (PMF.uniformOfFintype (Fin size → K)).bind fun rnd =>
    (PMF.uniformOfFintype K).bind fun x0 =>
      match generateMasterKey (bls c) size (pad rnd) y with
      | .ok mk => (A mk.pubKey mk.delKey).stage (userKeys c mk.privKey)
          (capsuleBytes cs t (engineEncrypt (bls c) t p mk.pubKey attrs (x0 • c.genT) s).toOption)
      | _ => .pure (⟨none, []⟩, ⟨none, []⟩, fun _ => PMF.uniformOfFintype Bool)

theorem HybridAttacker.lower_fair [Fintype Nonce] [Nonempty Nonce] (e : External Key Nonce) (c : Curve K P Q QP T) (cs : Codecs K P Q T) (t : Target)
    (max : Nat) (x0 x1 : K) (b : Bool) {gamma : List UInt32} : ∀ (A : HybridAttacker K Q QP) (used : Bool), A.Fair gamma →
      (A.lower e c cs t max x0 x1 b used).Fair gamma := by
  intro A
  induction A with
  | guess g => intro _ _; trivial
  | toss next ih => intro used h x; exact ih x used (h x)
  | choose n next ih => intro used h x; exact ih x used (h x)
  | key p ap next ih => intro used h; exact ⟨h.1, h.2.1, fun k => ih k used (h.2.2 k)⟩
  | challenge m0 m1 next ih =>
    intro used h
    simp only [HybridAttacker.lower]
    split
    · exact ih _ true (h _)
    · exact fun ct i => ih _ true (h _)

theorem kemAttacker_fair [Fintype Nonce] [Nonempty Nonce] (e : External Key Nonce) (c : Curve K P Q QP T) (cs : Codecs K P Q T) (t : Target) (max : Nat)
    {A : MasterPublicKey P T → DelegationKey Q → HybridAttacker K Q QP} {gamma : List UInt32} (hA : ∀ pk dk, (A pk dk).Fair gamma) (pk dk) :
    (kemAttacker e c cs t max A pk dk).Fair gamma :=
  fun x0 x1 _ => HybridAttacker.lower_fair e c cs t max x0 x1 _ _ _ (hA pk dk)

/-- The challenge with an element `xc` in the encapsulation and an element `xk` for the key. -/
noncomputable def mixedChallenge [Fintype Nonce] [Nonempty Nonce] (e : External Key Nonce) (c : Curve K P Q QP T) (cs : Codecs K P Q T) (t : Target)
    (max : Nat) (ct : K → Option (CipherText P T)) (xc xk : K) (b : Bool) (m0 m1 : HybridMsg) : PMF (Option (Bytes × List Bytes)) :=
  (PMF.uniformOfFintype (Fin ((if b then m1 else m0).blocks.length + 1) → Nonce)).map fun ν =>
    assemble (capsuleBytes cs t (ct xc)) (symmetricPart e cs max (xk • c.genT) (if b then m1 else m0) (padNonce ν))

theorem HybridAttacker.exec_used [Fintype K] {k : Policy → AccessPolicy → PMF (Option (DecryptionKey K QP Q))}
    (ch1 ch2 : HybridMsg → HybridMsg → PMF (Option (Bytes × List Bytes))) : ∀ A : HybridAttacker K Q QP, A.exec k ch1 true = A.exec k ch2 true := by
  intro A
  induction A with
  | guess b => rfl
  | toss next ih => simp only [HybridAttacker.exec, ih]
  | choose n next ih => simp only [HybridAttacker.exec, ih]
  | key p ap next ih => simp only [HybridAttacker.exec, ih]
  | challenge m0 m1 next ih => simp only [HybridAttacker.exec, ih, if_true]

theorem HybridAttacker.lower_exec [Fintype K] [Fintype Nonce] [Nonempty Nonce] (e : External Key Nonce) (c : Curve K P Q QP T) (cs : Codecs K P Q T) (t : Target)
    (max : Nat) (x0 x1 : K) (b' : Bool) (keys : Policy → AccessPolicy → PMF (Option (DecryptionKey K QP Q))) (enc : T → Option (CipherText P T)) (b : Bool) :
    ∀ (A : HybridAttacker K Q QP) (used : Bool), (A.lower e c cs t max x0 x1 b' used).exec keys (fun m0 m1 => enc (if b then m1 else m0)) used =
      (A.exec keys (mixedChallenge e c cs t max (fun x => enc (x • c.genT)) (if b then x1 else x0) x1 b') used).map (· == b') := by
  intro A
  induction A with
  | guess g => intro used; simp only [HybridAttacker.lower, Attacker.exec, HybridAttacker.exec, PMF.pure_map]
  | toss next ih => intro used; simp only [HybridAttacker.lower, Attacker.exec, HybridAttacker.exec, PMF.map_bind, ih]
  | choose n next ih => intro used; simp only [HybridAttacker.lower, Attacker.exec, HybridAttacker.exec, PMF.map_bind, ih]
  | key p ap next ih => intro used; simp only [HybridAttacker.lower, Attacker.exec, HybridAttacker.exec, PMF.map_bind, ih]
  | challenge m0 m1 next ih =>
    intro used
    cases used with
    | true => simp only [HybridAttacker.lower, HybridAttacker.exec, if_true, ih]
    | false =>
      simp only [HybridAttacker.lower, Attacker.exec, HybridAttacker.exec, Bool.false_eq_true, if_false, Attacker.exec_draw, mixedChallenge, PMF.bind_map,
        PMF.map_bind, Function.comp, ih]
      cases b <;> rfl

theorem HybridAttacker.stage_exec [Fintype K] [Fintype Nonce] [Nonempty Nonce] (e : External Key Nonce) (c : Curve K P Q QP T) (cs : Codecs K P Q T) (t : Target)
    (max : Nat) (xc : K) (b : Bool) (keys : Policy → AccessPolicy → PMF (Option (DecryptionKey K QP Q))) (ct : K → Option (CipherText P T)) :
    ∀ A : HybridAttacker K Q QP, ((PMF.uniformOfFintype K).bind fun xk => (A.exec keys (mixedChallenge e c cs t max ct xc xk b) false).map (· == b)) =
      (A.stage keys (capsuleBytes cs t (ct xc))).bind fun d => (PMF.uniformOfFintype K).bind fun xk =>
        (PMF.uniformOfFintype (Fin ((if b then d.2.1 else d.1).blocks.length + 1) → Nonce)).bind fun ν =>
          (d.2.2 (symmetricPart e cs max (xk • c.genT) (if b then d.2.1 else d.1) (padNonce ν))).map (· == b) := by
  intro A
  induction A with
  | guess g => simp only [HybridAttacker.exec, HybridAttacker.stage, PMF.pure_bind, PMF.bind_const, PMF.pure_map]
  | toss next ih =>
    simp only [HybridAttacker.exec, HybridAttacker.stage, PMF.map_bind, PMF.bind_bind]
    rw [PMF.bind_comm]
    simp only [ih]
  | choose n next ih =>
    simp only [HybridAttacker.exec, HybridAttacker.stage, PMF.map_bind, PMF.bind_bind]
    rw [PMF.bind_comm]
    simp only [ih]
  | key p ap next ih =>
    simp only [HybridAttacker.exec, HybridAttacker.stage, PMF.map_bind, PMF.bind_bind]
    rw [PMF.bind_comm]
    simp only [ih]
  | challenge m0 m1 next ih =>
    simp only [HybridAttacker.exec, HybridAttacker.stage, PMF.pure_bind, Bool.false_eq_true, if_false, PMF.map_bind]
    congr 1; funext xk
    conv_lhs => unfold mixedChallenge
    rw [PMF.bind_map]
    congr 1; funext ν
    simp only [Function.comp]
    congr 1
    exact HybridAttacker.exec_used _ _ _

/-- The game with an element `xc` in the encapsulation and an element `xk` for the key. -/
noncomputable def mixedRun [Fintype K] [Fintype Nonce] [Nonempty Nonce] (e : External Key Nonce) (c : Curve K P Q QP T) (cs : Codecs K P Q T) (t : Target)
    (max size : Nat) (p : Policy) (attrs : List Attribute) (A : MasterPublicKey P T → DelegationKey Q → HybridAttacker K Q QP) (s y : K)
    (rnd : Fin size → K) (xc xk : K) (b : Bool) : PMF Bool :=
  match generateMasterKey (bls c) size (pad rnd) y with
  | .ok mk => ((A mk.pubKey mk.delKey).exec (userKeys c mk.privKey)
      (mixedChallenge e c cs t max (fun x => (engineEncrypt (bls c) t p mk.pubKey attrs (x • c.genT) s).toOption) xc xk b) false).map (· == b)
  | _ => PMF.uniformOfFintype Bool

theorem hybridRun_mixed [Fintype K] [Fintype Nonce] [Nonempty Nonce] (e : External Key Nonce) (c : Curve K P Q QP T) (cs : Codecs K P Q T) (t : Target)
    (max size : Nat) (p : Policy) (attrs : List Attribute) (A : MasterPublicKey P T → DelegationKey Q → HybridAttacker K Q QP) (s y : K) (b : Bool)
    (rnd : Fin size → K) (x : K) : hybridRun e c cs t max size p attrs A s y b rnd x = mixedRun e c cs t max size p attrs A s y rnd x x b := by
  unfold hybridRun mixedRun
  cases generateMasterKey (bls c) size (pad rnd) y with
  | err _ => rfl
  | panic => rfl
  | ok mk =>
    simp only [encryptHybrid_split]
    rfl

theorem coin_map (b : Bool) : (PMF.uniformOfFintype Bool).map (· == b) = PMF.uniformOfFintype Bool := by
  have := uniform_bind_equiv (α := Bool) (β := Bool) (γ := Bool) ⟨(· == b), (· == b), by cases b <;> decide, by cases b <;> decide⟩ PMF.pure
  rw [PMF.bind_pure] at this
  exact this

theorem attributesValues_iff {p : Policy} {atts : List Attribute} {vs : List UInt32} : p.attributesValues atts = .ok vs ↔ List.Forall₂ p.Top atts vs := by
  unfold Policy.attributesValues
  rw [mapRes_eq_ok]
  have : ∀ a v, (Res.ofOption .policyError (p.currentValue a) : Out UInt32) = .ok v ↔ p.Top a v := by
    intro a v
    rw [top_iff]
    cases p.currentValue a <;> simp [Res.ofOption]
  simp only [this]

theorem selectiveRun_mixed [Fintype K] [Fintype Nonce] [Nonempty Nonce] (e : External Key Nonce) (c : Curve K P Q QP T) (cs : Codecs K P Q T) (t : Target)
    (max size : Nat) {p : Policy} {attrs : List Attribute} {gamma : List UInt32} (hg : p.attributesValues attrs = .ok gamma)
    (A : MasterPublicKey P T → DelegationKey Q → HybridAttacker K Q QP) (s y : K) (b : Bool) (rnd : Fin size → K) :
    selectiveRun c t size gamma (kemAttacker e c cs t max A) s y b rnd = (((PMF.uniformOfFintype K).bind fun x0 => (PMF.uniformOfFintype K).bind fun x1 =>
      (PMF.uniformOfFintype Bool).bind fun b' => mixedRun e c cs t max size p attrs A s y rnd (if b then x1 else x0) x1 b').map (· == b)) := by
  unfold selectiveRun mixedRun
  cases generateMasterKey (bls c) size (pad rnd) y with
  | err _ => simp only [PMF.bind_const, coin_map]
  | panic => simp only [PMF.bind_const, coin_map]
  | ok mk =>
    dsimp only
    congr 1
    unfold kemAttacker
    simp only [Attacker.exec, Attacker.exec_draw]
    congr 1; funext x0; congr 1; funext x1; congr 1; funext b'
    rw [HybridAttacker.lower_exec e c cs t max x0 x1 b' _ (fun m => (encrypt (bls c) t m gamma mk.pubKey s).toOption) b]
    have : ∀ m, engineEncrypt (bls c) t p mk.pubKey attrs m s = encrypt (bls c) t m gamma mk.pubKey s := by
      intro m
      unfold engineEncrypt
      rw [hg, Res.ok_bind]
    simp only [this]

theorem symmetricGame_mixed [Fintype K] [Fintype Nonce] [Nonempty Nonce] (e : External Key Nonce) (c : Curve K P Q QP T) (cs : Codecs K P Q T) (t : Target)
    (max size : Nat) (p : Policy) (attrs : List Attribute) (A : MasterPublicKey P T → DelegationKey Q → HybridAttacker K Q QP) :
    symmetricGame e c cs max (demAttacker c cs t size p attrs A) = (PMF.uniformOfFintype Bool).bind fun b => (PMF.uniformOfFintype K).bind fun s =>
      (PMF.uniformOfFintype K).bind fun y => (PMF.uniformOfFintype (Fin size → K)).bind fun rnd => (PMF.uniformOfFintype K).bind fun x0 =>
        (PMF.uniformOfFintype K).bind fun x1 => mixedRun e c cs t max size p attrs A s y rnd x0 x1 b := by
  unfold symmetricGame demAttacker
  simp only [PMF.bind_bind]
  congr 1; funext b; congr 1; funext s; congr 1; funext y; congr 1; funext rnd; congr 1; funext x0
  unfold mixedRun
  cases generateMasterKey (bls c) size (pad rnd) y with
  | err _ => simp only [PMF.pure_bind, PMF.bind_const, coin_map]
  | panic => simp only [PMF.pure_bind, PMF.bind_const, coin_map]
  | ok mk => exact (HybridAttacker.stage_exec e c cs t max x0 b _ (fun x => (engineEncrypt (bls c) t p mk.pubKey attrs (x • c.genT) s).toOption) _).symm

theorem prob_map_true (E : PMF Bool) : prob (E.map (· == true)) = prob E := by
  have : (fun x : Bool => x == true) = id := by funext x; simp
  rw [this, PMF.map_id]

theorem prob_map_false (E : PMF Bool) : prob (E.map (· == false)) = 1 - prob E := by
  have h1 : (E.map (· == false)) true = E false := by
    rw [PMF.map_apply, tsum_fintype]
    simp
  have h2 : E true + E false = 1 := by
    rw [← E.tsum_coe, tsum_fintype]
    simp
  unfold prob
  rw [h1, eq_sub_iff_add_eq, ← ENNReal.toReal_add (PMF.apply_ne_top _ _) (PMF.apply_ne_top _ _), add_comm, h2]
  rfl

theorem prob_half {α : Type} [Fintype α] [Nonempty α] {f g h : α → PMF Bool} (hh : ∀ a, prob (f a) = (prob (g a) + 1 - prob (h a)) / 2) :
    prob ((PMF.uniformOfFintype α).bind f) = (prob ((PMF.uniformOfFintype α).bind g) + 1 - prob ((PMF.uniformOfFintype α).bind h)) / 2 := by
  rw [prob_uniform, prob_uniform, prob_uniform]
  have hc : (Fintype.card α : ℝ) ≠ 0 := by exact_mod_cast Fintype.card_ne_zero
  have h1 : ∑ a, prob (f a) = ∑ a, (prob (g a) + 1 - prob (h a)) / 2 := Finset.sum_congr rfl fun a _ => hh a
  rw [h1, ← Finset.sum_div, Finset.sum_sub_distrib, Finset.sum_add_distrib]
  simp only [Finset.sum_const, Finset.card_univ, nsmul_eq_mul]
  field_simp

/-- **C82.** The advantage of an attacker on hybrid messages is bounded by that of an attacker on the symmetric scheme, with a key that is derived from a random
element and used for nothing else, and that of the reduction to the bilinear Diffie-Hellman problem. -/
theorem C82_hybrid_confidentiality [Fintype K] [Fintype Nonce] [Nonempty Nonce] (e : External Key Nonce) (c : Curve K P Q QP T)
    (hT : ∀ m : T, ∃ x : K, m = x • c.genT) (cs : Codecs K P Q T) (t : Target) (max size : Nat) {p : Policy} {attrs : List Attribute} {gamma : List UInt32}
    (hg : List.Forall₂ p.Top attrs gamma) (A : MasterPublicKey P T → DelegationKey Q → HybridAttacker K Q QP) (hA : ∀ pk dk, (A pk dk).Fair gamma) :
    |prob (hybridGame e c cs t max size p attrs A) - 1 / 2| ≤ |prob (symmetricGame e c cs max (demAttacker c cs t size p attrs A)) - 1 / 2| +
      2 * |prob ((bdhReal c).bind (distinguisher c size gamma (kemAttacker e c cs t max A))) -
        prob ((bdhRandom c).bind (distinguisher c size gamma (kemAttacker e c cs t max A)))| := by
  rw [← attributesValues_iff] at hg
  have hkem := (C80_selective_security c hT t size gamma _ (kemAttacker_fair e c cs t max hA)).2
  have key : prob (selectiveGame c t size gamma (kemAttacker e c cs t max A)) =
      (prob (hybridGame e c cs t max size p attrs A) + 1 - prob (symmetricGame e c cs max (demAttacker c cs t size p attrs A))) / 2 := by
    have hH : hybridGame e c cs t max size p attrs A = (PMF.uniformOfFintype K).bind fun s => (PMF.uniformOfFintype K).bind fun y =>
        (PMF.uniformOfFintype (Fin size → K)).bind fun rnd => (PMF.uniformOfFintype K).bind fun _ => (PMF.uniformOfFintype K).bind fun x1 =>
          (PMF.uniformOfFintype Bool).bind fun b => mixedRun e c cs t max size p attrs A s y rnd x1 x1 b := by
      unfold hybridGame
      simp only [hybridRun_mixed, PMF.bind_const]
      congr 1; funext s; congr 1; funext y
      rw [PMF.bind_comm]
      congr 1; funext rnd
      rw [PMF.bind_comm]
    have hS : symmetricGame e c cs max (demAttacker c cs t size p attrs A) = (PMF.uniformOfFintype K).bind fun s => (PMF.uniformOfFintype K).bind fun y =>
        (PMF.uniformOfFintype (Fin size → K)).bind fun rnd => (PMF.uniformOfFintype K).bind fun x0 => (PMF.uniformOfFintype K).bind fun x1 =>
          (PMF.uniformOfFintype Bool).bind fun b => mixedRun e c cs t max size p attrs A s y rnd x0 x1 b := by
      rw [symmetricGame_mixed, PMF.bind_comm]
      congr 1; funext s
      rw [PMF.bind_comm]
      congr 1; funext y
      rw [PMF.bind_comm]
      congr 1; funext rnd
      rw [PMF.bind_comm]
      congr 1; funext x0
      rw [PMF.bind_comm]
    rw [hH, hS]
    unfold selectiveGame
    refine prob_half fun s => prob_half fun y => ?_
    rw [PMF.bind_comm]
    refine prob_half fun rnd => ?_
    rw [prob_uniform]
    simp only [Fintype.sum_bool, Fintype.card_bool, selectiveRun_mixed e c cs t max size hg, prob_map_true, prob_map_false, if_true, Bool.false_eq_true, if_false]
    push_cast
    ring
  set S := prob (selectiveGame c t size gamma (kemAttacker e c cs t max A))
  set H := prob (hybridGame e c cs t max size p attrs A)
  set D := prob (symmetricGame e c cs max (demAttacker c cs t size p attrs A))
  have : H - 1 / 2 = (D - 1 / 2) + 2 * (S - 1 / 2) := by rw [key]; ring
  rw [this]
  calc |(D - 1 / 2) + 2 * (S - 1 / 2)| ≤ |D - 1 / 2| + |2 * (S - 1 / 2)| := abs_add_le _ _
    _ = |D - 1 / 2| + 2 * |S - 1 / 2| := by rw [abs_mul, abs_two]
    _ ≤ _ := by linarith

/-- The attacker who asks for a key and reads the metadata of the header. -/
def reader (e : External Key Nonce) (c : Curve K P Q QP T) (cs : Codecs K P Q T) (t : Target) (p : Policy) (ap : AccessPolicy) (m0 m1 : Metadata) :
    HybridAttacker K Q QP :=
  .key p ap fun k => .challenge ⟨some m0, []⟩ ⟨some m1, []⟩ fun r =>
    match k, r with
    | some k, some r => .guess (match decryptHybridHeader e (bls c) cs t k r.1 with | .ok h => decide (h.metaData = m1) | _ => false)
    | _, _ => .guess false

/-- **C82.** The rule of the game is needed: with an authorised key the game is won in every run with a master key. -/
theorem C82_authorised_wins [Fintype K] [Fintype Nonce] [Nonempty Nonce] {e : External Key Nonce} {tag : Nat} (he : e.Lawful tag) (c : Curve K P Q QP T)
    {cs : Codecs K P Q T} (hcs : cs.Lawful) {t : Target} (ht : 32 ≤ t.bits) (max : Nat) {p : Policy} (hw : p.WF) {attrs : List Attribute}
    {rnd : Fin p.maxAttributeCreations.toNat → K} {y : K} {mk : MasterKey K P Q T} (hmk : engineGenerateMasterKey (bls c) p (pad rnd) y = .ok mk)
    {ap : AccessPolicy} (hv : ap.Valid p) (hr : ∀ b v, ap.Grants p b → p.HasValue b v → v.toNat < p.maxAttributeCreations.toNat)
    (hsat : ap.Sat p (· ∈ attrs)) {s x : K} (henc : ∃ ct, engineEncrypt (bls c) t p mk.pubKey attrs (x • c.genT) s = .ok ct)
    (hlen : ciphertextLen attrs.length < 2 ^ 32) {m0 m1 : Metadata} (hm : m0 ≠ m1) (hk0 : e.Keeps m0) (hk1 : e.Keeps m1)
    (hmeta : ∀ m, m = m0 ∨ m = m1 → ∃ mb, e.metaEnc m = .ok mb ∧ mb.length + tag < 2 ^ 32 ∧ ∀ k nonce, ∃ em, e.encrypt k mb nonce none = .ok em) (b : Bool) :
    hybridRun e c cs t max p.maxAttributeCreations.toNat p attrs (fun _ _ => reader e c cs t p ap m0 m1) s y b rnd x = .pure true := by
  have hmk' : generateMasterKey (bls c) p.maxAttributeCreations.toNat (pad rnd) y = .ok mk := hmk
  obtain ⟨ct, henc⟩ := henc
  unfold hybridRun
  rw [hmk']
  dsimp only
  unfold reader
  simp only [HybridAttacker.exec, PMF.map_bind, userKeys, PMF.bind_map, Bool.false_eq_true, if_false]
  refine bind_const' fun r => ?_
  simp only [Function.comp, PMF.map_bind]
  refine bind_const' fun ν => ?_
  obtain ⟨tI, htl, hnz, rfl⟩ := generateMasterKey_inv c hmk'
  obtain ⟨key, hkey⟩ := (C07_key_generation_success c hw hnz y ap (pad r)).1 ⟨hv, by rw [htl]; exact hr⟩
  have huk : UserKey c p ⟨⟨tI, y⟩, pubOf c tI y, delOf c tI⟩ ap key := .generate _ hkey
  have hopen : ∀ m, m = m0 ∨ m = m1 → ∃ h : EncryptedHeader Key,
      encryptHybridHeader e (bls c) cs t p (pubOf c tI y) attrs (some m) (x • c.genT) s (padNonce ν 0) = .ok h ∧
      decryptHybridHeader e (bls c) cs t key h.encryptedHeaderBytes = .ok ⟨h.symmetricKey, m⟩ := by
    intro m hmm
    obtain ⟨mb, g1, g2, g3⟩ := hmeta m hmm
    obtain ⟨h, hh⟩ := C35_header_encrypts (md := some m) (nonce := padNonce ν 0) c hcs he hw hmk henc hlen
      (by rintro m' ⟨⟩; exact ⟨mb, g1, g2, fun k => g3 k _⟩)
    refine ⟨h, hh, ?_⟩
    have hkeeps : e.Keeps m := by rcases hmm with rfl | rfl <;> assumption
    exact C35_header_round_trip c ht hcs he hw hmk huk (by rintro m' ⟨⟩; exact hkeeps) hh hsat
  obtain ⟨h0, ha0, hb0⟩ := hopen m0 (.inl rfl)
  obtain ⟨h1, ha1, hb1⟩ := hopen m1 (.inr rfl)
  simp only [hkey, Res.toOption_ok]
  cases b
  · have : encryptHybrid e c cs t max p (pubOf c tI y) attrs ⟨some m0, []⟩ (x • c.genT) s (padNonce ν) = .ok (h0.encryptedHeaderBytes, []) := by
      unfold encryptHybrid
      simp only [ha0, Res.ok_bind, encryptBlocks]
    simp only [Bool.false_eq_true, if_false, this, Res.toOption_ok, HybridAttacker.exec, hb0, PMF.pure_map]
    congr 1
    simpa using hm
  · have : encryptHybrid e c cs t max p (pubOf c tI y) attrs ⟨some m1, []⟩ (x • c.genT) s (padNonce ν) = .ok (h1.encryptedHeaderBytes, []) := by
      unfold encryptHybrid
      simp only [ha1, Res.ok_bind, encryptBlocks]
    simp only [if_true, this, Res.toOption_ok, HybridAttacker.exec, hb1, PMF.pure_map]
    congr 1

namespace Demo

/-- An attacker on messages for `Low` and `HR` with a key for `MKG`, who sends different metadata and blocks and looks at everything. -/
def spy (look : MasterPublicKey F F → DelegationKey F → Option (DecryptionKey F F F) → Option (Bytes × List Bytes) → Fin 3 → Bool)
    (pk : MasterPublicKey F F) (dk : DelegationKey F) : HybridAttacker F F F :=
  .key policy (.attr mkg) fun k => .challenge ⟨some metadata, [([1], 0, [4, 5]), ([1], 1, [6])]⟩ ⟨some ⟨[5, 6, 7, 8], none⟩, [([1], 0, [7, 8]), ([1], 1, [9])]⟩
    fun r => .choose 2 fun i => .guess (look pk dk k r i)

theorem spy_fair (look) (pk dk) : (spy look pk dk).Fair [1, 4] := ⟨policy_reachable, mkg_unauthorised, fun _ _ _ => trivial⟩

/-- **C82** for this attacker. -/
example (look) : |prob (hybridGame symmetric curveF codecs .release64 10 8 policy [low, hr] (spy look)) - 1 / 2| ≤
    |prob (symmetricGame symmetric curveF codecs 10 (demAttacker curveF codecs .release64 8 policy [low, hr] (spy look))) - 1 / 2| +
      2 * |prob ((bdhReal curveF).bind (distinguisher curveF 8 [1, 4] (kemAttacker symmetric curveF codecs .release64 10 (spy look)))) -
        prob ((bdhRandom curveF).bind (distinguisher curveF 8 [1, 4] (kemAttacker symmetric curveF codecs .release64 10 (spy look))))| :=
  C82_hybrid_confidentiality symmetric curveF (fun m => ⟨m, by simp [curveF]⟩) codecs .release64 10 8 (attributesValues_iff.1 (by decide +kernel)) (spy look) (spy_fair look)

/-- With a key for `High && (HR || MKG)` the metadata is read. -/
example (b : Bool) : hybridRun symmetric curveF codecs .release64 10 8 policy [low, hr]
    (fun _ _ => reader symmetric curveF codecs .release64 policy ap metadata ⟨[5, 6, 7, 8], none⟩) 7 3 b (fun _ => 2) 5 = .pure true := by
  obtain ⟨mk, hmk⟩ : ∃ mk, engineGenerateMasterKey (bls curveF) policy (Abe.pad fun _ : Fin policy.maxAttributeCreations.toNat => (2 : F)) 3 = .ok mk :=
    exists_of_isOk (by decide +kernel)
  have hsat : ap.Sat policy (· ∈ [low, hr]) := by
    refine ⟨⟨low, ⟨["Low"], [], true, by decide +kernel, by decide +kernel, rfl, Or.inr ⟨rfl, by decide +kernel⟩⟩, by decide⟩, Or.inl ⟨hr, ?_, by decide⟩⟩
    exact ⟨["RnD"], ["MKG"], false, by decide +kernel, by decide +kernel, rfl, Or.inl rfl⟩
  refine C82_authorised_wins symmetric_lawful curveF codecs_lawful (by decide) 10 (reachable_wf policy_reachable) hmk ap_authorised.1.1 ap_authorised.1.2 hsat
    ?_ (by decide) (by decide) metadata_kept ⟨[0, 0, 0, 4, 5, 6, 7, 8], by decide, by decide⟩ ?_ b
  · have : (match engineGenerateMasterKey (bls curveF) policy (Abe.pad fun _ : Fin policy.maxAttributeCreations.toNat => (2 : F)) 3 with
      | .ok mk => (match engineEncrypt (bls curveF) .release64 policy mk.pubKey [low, hr] ((5 : F) • curveF.genT) 7 with | .ok _ => true | _ => false)
      | _ => false) = true := by decide +kernel
    rw [hmk] at this
    dsimp only at this
    revert this
    cases engineEncrypt (bls curveF) .release64 policy mk.pubKey [low, hr] ((5 : F) • curveF.genT) 7 with
    | ok ct => exact fun _ => ⟨ct, rfl⟩
    | err e => simp
    | panic => simp
  · rintro m (rfl | rfl)
    · exact ⟨[0, 0, 0, 4, 1, 2, 3, 4, 9, 8], by decide, by decide, fun k _ => ⟨_, rfl⟩⟩
    · exact ⟨[0, 0, 0, 4, 5, 6, 7, 8], by decide, by decide, fun k _ => ⟨_, rfl⟩⟩

end Demo

end Abe

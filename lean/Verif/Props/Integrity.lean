import Verif.Spec.Integrity
import Verif.Props.HybridGame

/-!
# Integrity of hybrid messages

Property C98.
-/

set_option linter.unusedSectionVars false

namespace Abe

variable {K P Q QP T Key Nonce : Type} [Field K] [DecidableEq K] [AddCommGroup P] [Module K P] [AddCommGroup Q] [Module K Q]
  [AddCommGroup T] [Module K T]

/-! ### A header is an encapsulation and what follows it -/

/-- The key derived from an element, and what follows the encapsulation. -/
def sealedTail (e : External Key Nonce) (cs : Codecs K P Q T) (max : Nat) (random : T) (m : Option Metadata) (ν : Nonce) : Option (Key × Bytes) :=
  (derivedKey e cs random).bind fun kb => (e.keyDec kb).toOption.bind fun key =>
    (encryptSymmetric e max kb ⟨m, []⟩ fun _ => ν).toOption.map fun r => (key, r.1)

/-- A header from an encapsulation and what follows it. -/
def behind (cap : Option Bytes) (r : Option (Key × Bytes)) : Option (Key × Bytes) := cap.bind fun cap => r.map fun r => (r.1, cap ++ r.2)

theorem encryptHybridHeader_split (e : External Key Nonce) (c : Curve K P Q QP T) (cs : Codecs K P Q T) (t : Target) (max : Nat) (p : Policy)
    (pub : MasterPublicKey P T) (attrs : List Attribute) (m : Option Metadata) (random : T) (s : K) (ν : Nonce) :
    ((encryptHybridHeader e (bls c) cs t p pub attrs m random s ν).toOption.map fun h => (h.symmetricKey, h.encryptedHeaderBytes)) =
      behind (capsuleBytes cs t (engineEncrypt (bls c) t p pub attrs random s).toOption) (sealedTail e cs max random m ν) := by
  unfold encryptHybridHeader generateSymmetricKey behind capsuleBytes sealedTail derivedKey encryptSymmetric
  simp only [Res.toOption_bind]
  cases (engineEncrypt (bls c) t p pub attrs random s).toOption with
  | none => rfl
  | some ct =>
    simp only [Option.bind_some]
    cases ((cipherTextCodec t cs).enc ct).toOption with
    | none => rfl
    | some cap =>
      simp only [Option.bind_some]
      cases (cs.gt.enc random).toOption with
      | none => simp only [Option.bind_none, Option.map_none, Option.bind_fun_none]
      | some b =>
        simp only [Option.bind_some, Option.map_some, Res.toOption_ok]
        cases (e.keyDec (e.shake b e.keyLen)).toOption with
        | none => simp only [Option.bind_none, Option.map_none, Option.bind_fun_none]
        | some key =>
          simp only [Option.bind_some]
          cases (u32Len cap).toOption with
          | none => rfl
          | some sz =>
            simp only [Option.bind_some, Option.map_some, encryptBlocks]
            cases m with
            | none => simp [Res.toOption_ok]
            | some m =>
              simp only [Res.toOption_bind]
              cases (e.metaEnc m).toOption with
              | none => rfl
              | some mb =>
                simp only [Option.bind_some]
                cases (e.encrypt key mb ν none).toOption with
                | none => rfl
                | some em =>
                  simp only [Option.bind_some]
                  cases (u32Len em).toOption with
                  | none => rfl
                  | some sz' => simp [Res.toOption_ok]

/-! ### The reductions -/

/-- A draw from any finite type. -/
noncomputable def Forger.draw (α : Type) [Fintype α] [Nonempty α] (next : α → Forger K Q QP) : Forger K Q QP :=
  .choose (Fintype.card α - 1) fun i => next (((finCongr (Nat.sub_add_cancel Fintype.card_pos)).trans (Fintype.equivFin α).symm) i)

theorem Forger.exec_draw [Fintype Nonce] [Nonempty Nonce] {α : Type} [Fintype α] [Nonempty α] (next : α → Forger K Q QP) (e : External Key Nonce) (max : Nat)
    (keys : Policy → AccessPolicy → PMF (Option (DecryptionKey K QP Q))) (hdr : Option Metadata → Nonce → Option (Key × Bytes)) (σ : Session Key) :
    (Forger.draw α next).exec e max keys hdr σ = (PMF.uniformOfFintype α).bind fun a => (next a).exec e max keys hdr σ := by
  unfold Forger.draw
  simp only [Forger.exec]
  exact uniform_bind_equiv ((finCongr (Nat.sub_add_cancel Fintype.card_pos)).trans (Fintype.equivFin α).symm) fun a => (next a).exec e max keys hdr σ

/-- The attacker on the scheme: it asks for the encryption of one of two elements, plays the sender and the readers with the key derived from the second, and
guesses that the second was encrypted if the given attacker wins. -/
noncomputable def Forger.lower [Fintype Nonce] [Nonempty Nonce] (e : External Key Nonce) (c : Curve K P Q QP T) (cs : Codecs K P Q T) (t : Target)
    (max : Nat) (x0 x1 : K) : Forger K Q QP → Session Key → Attacker K P Q QP T
  | .stop, _ => .guess false
  | .choose n next, σ => .choose n fun x => (next x).lower e c cs t max x0 x1 σ
  | .key p ap next, σ => .key p ap fun k => (next k).lower e c cs t max x0 x1 σ
  | .header m next, σ =>
    if σ.asked then (next none).lower e c cs t max x0 x1 σ
    else .challenge (x0 • c.genT) (x1 • c.genT) fun ct => .draw Nonce fun ν =>
      (next ((behind (capsuleBytes cs t ct) (sealedTail e cs max (x1 • c.genT) m ν)).map Prod.snd)).lower e c cs t max x0 x1
        { asked := true, key := (behind (capsuleBytes cs t ct) (sealedTail e cs max (x1 • c.genT) m ν)).map Prod.fst, metaData := m, blocks := [] }
  | .block uid n plaintext next, σ => .draw Nonce fun ν =>
      match σ.key.bind fun k => (encryptHybridBlock e max k uid n plaintext ν).toOption with
      | none => (next none).lower e c cs t max x0 x1 σ
      | some b => (next (some b)).lower e c cs t max x0 x1 { σ with blocks := (uid, n, b) :: σ.blocks }
  | .tryBlock uid n b next, σ =>
    match σ.key.bind fun k => (decryptHybridBlock e max k uid n b).toOption with
    | none => (next none).lower e c cs t max x0 x1 σ
    | some x => if (uid, n, b) ∈ σ.blocks then (next (some x)).lower e c cs t max x0 x1 σ else .guess true
  | .tryTail tail next, σ =>
    match σ.key.bind fun k => readTail e k tail with
    | none => (next none).lower e c cs t max x0 x1 σ
    | some m => if m = .default ∨ σ.metaData = some m then (next (some m)).lower e c cs t max x0 x1 σ else .guess true

/-- The attacker on the encapsulations. -/
noncomputable def kemForger [Fintype Nonce] [Nonempty Nonce] (e : External Key Nonce) (c : Curve K P Q QP T) (cs : Codecs K P Q T) (t : Target) (max : Nat)
    (A : MasterPublicKey P T → DelegationKey Q → Forger K Q QP) (pk : MasterPublicKey P T) (dk : DelegationKey Q) : Attacker K P Q QP T :=
  .toss fun x0 => .toss fun x1 => (A pk dk).lower e c cs t max x0 x1 {}

/-- The attacker on the symmetric scheme, once it has a master key and the encapsulation of some element: it makes the user keys itself. -/
noncomputable def Forger.raise [Fintype K] (c : Curve K P Q QP T) (priv : MasterPrivateKey K) (cap : Bytes) : Forger K Q QP → Forger K Q QP
  | .stop => .stop
  | .choose n next => .choose n fun x => (next x).raise c priv cap
  | .key p ap next => .draw (Fin (keyDraws p ap) → K) fun r => (next (engineGenerateUserKey (bls c) p priv ap (pad r)).toOption).raise c priv cap
  | .header m next => .header m fun r => (next (r.map (cap ++ ·))).raise c priv cap
  | .block uid n plaintext next => .block uid n plaintext fun r => (next r).raise c priv cap
  | .tryBlock uid n b next => .tryBlock uid n b fun r => (next r).raise c priv cap
  | .tryTail tail next => .tryTail tail fun r => (next r).raise c priv cap

/-- The attacker on the symmetric scheme. -/
noncomputable def demForger [Fintype K] (c : Curve K P Q QP T) (cs : Codecs K P Q T) (t : Target) (size : Nat) (p : Policy)
    (attrs : List Attribute) (A : MasterPublicKey P T → DelegationKey Q → Forger K Q QP) : Forger K Q QP :=
  .draw K fun s => .draw K fun y => .draw (Fin size → K) fun rnd => .draw K fun x0 =>
    match generateMasterKey (bls c) size (pad rnd) y with
    | .ok mk =>
      match capsuleBytes cs t (engineEncrypt (bls c) t p mk.pubKey attrs (x0 • c.genT) s).toOption with
      | some cap => (A mk.pubKey mk.delKey).raise c mk.privKey cap
      | none => .stop
    | _ => .stop

theorem Forger.lower_fair [Fintype Nonce] [Nonempty Nonce] (e : External Key Nonce) (c : Curve K P Q QP T) (cs : Codecs K P Q T) (t : Target)
    (max : Nat) (x0 x1 : K) {gamma : List UInt32} : ∀ (A : Forger K Q QP) (σ : Session Key), A.Fair gamma →
      (A.lower e c cs t max x0 x1 σ).Fair gamma := by
  intro A
  induction A with
  | stop => intro _ _; trivial
  | choose n next ih => intro σ h x; exact ih x σ (h x)
  | key p ap next ih => intro σ h; exact ⟨h.1, h.2.1, fun k => ih k σ (h.2.2 k)⟩
  | header m next ih =>
    intro σ h
    simp only [Forger.lower]
    split
    · exact ih _ _ (h _)
    · exact fun ct i => ih _ _ (h _)
  | block uid n pt next ih =>
    intro σ h
    simp only [Forger.lower, Attacker.draw, Attacker.Fair]
    intro i
    split <;> exact ih _ _ (h _)
  | tryBlock uid n b next ih =>
    intro σ h
    simp only [Forger.lower]
    split
    · exact ih _ _ (h _)
    · split
      · exact ih _ _ (h _)
      · trivial
  | tryTail tail next ih =>
    intro σ h
    simp only [Forger.lower]
    split
    · exact ih _ _ (h _)
    · split
      · exact ih _ _ (h _)
      · trivial

theorem Forger.lower_exec [Fintype K] [Fintype Nonce] [Nonempty Nonce] (e : External Key Nonce) (c : Curve K P Q QP T) (cs : Codecs K P Q T) (t : Target)
    (max : Nat) (x0 x1 : K) (keys : Policy → AccessPolicy → PMF (Option (DecryptionKey K QP Q))) (enc : T → Option (CipherText P T)) (b : Bool) :
    ∀ (A : Forger K Q QP) (σ : Session Key), (A.lower e c cs t max x0 x1 σ).exec keys (fun m0 m1 => enc (if b then m1 else m0)) σ.asked =
      A.exec e max keys (fun m ν => behind (capsuleBytes cs t (enc ((if b then x1 else x0) • c.genT))) (sealedTail e cs max (x1 • c.genT) m ν)) σ := by
  intro A
  induction A with
  | stop => intro σ; rfl
  | choose n next ih => intro σ; simp only [Forger.lower, Attacker.exec, Forger.exec, ih]
  | key p ap next ih => intro σ; simp only [Forger.lower, Attacker.exec, Forger.exec, ih]
  | header m next ih =>
    intro σ
    simp only [Forger.lower, Forger.exec]
    by_cases h : σ.asked = true
    · simp only [if_pos h]
      exact ih _ _
    · simp only [if_neg h]
      have : (if b = true then x1 • c.genT else x0 • c.genT) = (if b = true then x1 else x0) • c.genT := by cases b <;> rfl
      simp only [Attacker.exec, h, if_false, Attacker.exec_draw, Bool.false_eq_true]
      congr 1; funext ν
      rw [this]
      exact ih _ { asked := true, key := _, metaData := m, blocks := [] }
  | block uid n pt next ih =>
    intro σ
    simp only [Forger.lower, Forger.exec, Attacker.exec_draw]
    congr 1; funext ν
    cases σ.key.bind fun k => (encryptHybridBlock e max k uid n pt ν).toOption with
    | none => exact ih _ _
    | some x => exact ih _ { σ with blocks := _ }
  | tryBlock uid n bl next ih =>
    intro σ
    simp only [Forger.lower, Forger.exec]
    cases σ.key.bind fun k => (decryptHybridBlock e max k uid n bl).toOption with
    | none => exact ih _ _
    | some x =>
      by_cases h : (uid, n, bl) ∈ σ.blocks
      · simp only [if_pos h]
        exact ih _ _
      · simp only [if_neg h]
        rfl
  | tryTail tail next ih =>
    intro σ
    simp only [Forger.lower, Forger.exec]
    cases σ.key.bind fun k => readTail e k tail with
    | none => exact ih _ _
    | some m =>
      by_cases h : m = .default ∨ σ.metaData = some m
      · simp only [if_pos h]
        exact ih _ _
      · simp only [if_neg h]
        rfl

/-- Without a header there is nothing to win. -/
theorem Forger.exec_none [Fintype Nonce] [Nonempty Nonce] (e : External Key Nonce) (max : Nat)
    (keys : Policy → AccessPolicy → PMF (Option (DecryptionKey K QP Q))) : ∀ (A : Forger K Q QP) (σ : Session Key), σ.key = none →
      A.exec e max keys (fun _ _ => none) σ = .pure false := by
  intro A
  induction A with
  | stop => intro σ _; rfl
  | choose n next ih => intro σ h; simp only [Forger.exec]; exact bind_const' fun x => ih x σ h
  | key p ap next ih => intro σ h; simp only [Forger.exec]; exact bind_const' fun x => ih x σ h
  | header m next ih =>
    intro σ h
    simp only [Forger.exec]
    split
    · exact ih _ _ h
    · exact bind_const' fun ν => ih _ _ rfl
  | block uid n pt next ih => intro σ h; simp only [Forger.exec, h, Option.bind_none]; exact bind_const' fun ν => ih _ _ h
  | tryBlock uid n b next ih => intro σ h; simp only [Forger.exec, h, Option.bind_none]; exact ih _ _ h
  | tryTail tail next ih => intro σ h; simp only [Forger.exec, h, Option.bind_none]; exact ih _ _ h

theorem Forger.raise_exec [Fintype K] [Fintype Nonce] [Nonempty Nonce] (e : External Key Nonce) (c : Curve K P Q QP T) (max : Nat) (priv : MasterPrivateKey K)
    (cap : Bytes) (tail : Option Metadata → Nonce → Option (Key × Bytes)) : ∀ (A : Forger K Q QP) (σ : Session Key),
      (A.raise c priv cap).exec e max (fun _ _ => .pure none) tail σ = A.exec e max (userKeys c priv) (fun m ν => behind (some cap) (tail m ν)) σ := by
  intro A
  induction A with
  | stop => intro σ; rfl
  | choose n next ih => intro σ; simp only [Forger.raise, Forger.exec, ih]
  | key p ap next ih => intro σ; simp only [Forger.raise, Forger.exec, Forger.exec_draw, userKeys, PMF.bind_map, ih]; rfl
  | header m next ih =>
    intro σ
    have h1 : ∀ r : Option (Key × Bytes), (behind (some cap) r).map Prod.snd = (r.map Prod.snd).map (cap ++ ·) := by rintro (_ | _) <;> rfl
    have h2 : ∀ r : Option (Key × Bytes), (behind (some cap) r).map Prod.fst = r.map Prod.fst := by rintro (_ | _) <;> rfl
    simp only [Forger.raise, Forger.exec, ih, h1, h2]
    rfl
  | block uid n pt next ih => intro σ; simp only [Forger.raise, Forger.exec, ih]
  | tryBlock uid n b next ih => intro σ; simp only [Forger.raise, Forger.exec, ih]
  | tryTail tail next ih => intro σ; simp only [Forger.raise, Forger.exec, ih]

/-- The game with an element `xc` in the encapsulation and an element `xk` for the key. -/
noncomputable def mixedForgery [Fintype K] [Fintype Nonce] [Nonempty Nonce] (e : External Key Nonce) (c : Curve K P Q QP T) (cs : Codecs K P Q T) (t : Target)
    (max size : Nat) (p : Policy) (attrs : List Attribute) (A : MasterPublicKey P T → DelegationKey Q → Forger K Q QP) (s y : K)
    (rnd : Fin size → K) (xc xk : K) : PMF Bool :=
  match generateMasterKey (bls c) size (pad rnd) y with
  | .ok mk => (A mk.pubKey mk.delKey).exec e max (userKeys c mk.privKey)
      (fun m ν => behind (capsuleBytes cs t (engineEncrypt (bls c) t p mk.pubKey attrs (xc • c.genT) s).toOption) (sealedTail e cs max (xk • c.genT) m ν)) {}
  | _ => .pure false

theorem forgeryRun_mixed [Fintype K] [Fintype Nonce] [Nonempty Nonce] (e : External Key Nonce) (c : Curve K P Q QP T) (cs : Codecs K P Q T) (t : Target)
    (max size : Nat) (p : Policy) (attrs : List Attribute) (A : MasterPublicKey P T → DelegationKey Q → Forger K Q QP) (s y : K)
    (rnd : Fin size → K) (x : K) : forgeryRun e c cs t max size p attrs A s y rnd x = mixedForgery e c cs t max size p attrs A s y rnd x x := by
  unfold forgeryRun mixedForgery
  cases generateMasterKey (bls c) size (pad rnd) y with
  | err _ => rfl
  | panic => rfl
  | ok mk => simp only [encryptHybridHeader_split e c cs t max]

theorem symmetricForgery_mixed [Fintype K] [Fintype Nonce] [Nonempty Nonce] (e : External Key Nonce) (c : Curve K P Q QP T) (cs : Codecs K P Q T) (t : Target)
    (max size : Nat) (p : Policy) (attrs : List Attribute) (A : MasterPublicKey P T → DelegationKey Q → Forger K Q QP) :
    symmetricForgery e c cs max (demForger c cs t size p attrs A) = (PMF.uniformOfFintype K).bind fun s =>
      (PMF.uniformOfFintype K).bind fun y => (PMF.uniformOfFintype (Fin size → K)).bind fun rnd => (PMF.uniformOfFintype K).bind fun x0 =>
        (PMF.uniformOfFintype K).bind fun x1 => mixedForgery e c cs t max size p attrs A s y rnd x0 x1 := by
  unfold symmetricForgery demForger
  simp only [Forger.exec_draw]
  rw [PMF.bind_comm]
  congr 1; funext s
  rw [PMF.bind_comm]
  congr 1; funext y
  rw [PMF.bind_comm]
  congr 1; funext rnd
  rw [PMF.bind_comm]
  congr 1; funext x0; congr 1; funext x1
  unfold mixedForgery
  cases generateMasterKey (bls c) size (pad rnd) y with
  | err _ => rfl
  | panic => rfl
  | ok mk =>
    dsimp only
    cases capsuleBytes cs t (engineEncrypt (bls c) t p mk.pubKey attrs (x0 • c.genT) s).toOption with
    | none => exact (Forger.exec_none e max _ _ {} rfl).symm
    | some cap => exact Forger.raise_exec e c max mk.privKey cap (fun m ν => sealedTail e cs max (x1 • c.genT) m ν) _ {}

theorem kemForger_run [Fintype K] [Fintype Nonce] [Nonempty Nonce] (e : External Key Nonce) (c : Curve K P Q QP T) (cs : Codecs K P Q T) (t : Target)
    (max size : Nat) {p : Policy} {attrs : List Attribute} {gamma : List UInt32} (hg : p.attributesValues attrs = .ok gamma)
    (A : MasterPublicKey P T → DelegationKey Q → Forger K Q QP) (s y : K) (rnd : Fin size → K) :
    prob (selectiveRun c t size gamma (kemForger e c cs t max A) s y true rnd) + prob (selectiveRun c t size gamma (kemForger e c cs t max A) s y false rnd) =
      prob ((PMF.uniformOfFintype K).bind fun _ => (PMF.uniformOfFintype K).bind fun x1 => mixedForgery e c cs t max size p attrs A s y rnd x1 x1) + 1 -
        prob ((PMF.uniformOfFintype K).bind fun x0 => (PMF.uniformOfFintype K).bind fun x1 => mixedForgery e c cs t max size p attrs A s y rnd x0 x1) := by
  have hcoin : prob (PMF.uniformOfFintype Bool) = 1 / 2 := by
    unfold prob
    simp
  unfold selectiveRun mixedForgery
  cases generateMasterKey (bls c) size (pad rnd) y with
  | err _ => simp only [PMF.bind_const, hcoin]; ring
  | panic => simp only [PMF.bind_const, hcoin]; ring
  | ok mk =>
    dsimp only
    unfold kemForger
    have : ∀ m, engineEncrypt (bls c) t p mk.pubKey attrs m s = encrypt (bls c) t m gamma mk.pubKey s := by
      intro m
      unfold engineEncrypt
      rw [hg, Res.ok_bind]
    have h := fun b x0 x1 => Forger.lower_exec e c cs t max x0 x1 (userKeys c mk.privKey) (fun m => (encrypt (bls c) t m gamma mk.pubKey s).toOption) b
      (A mk.pubKey mk.delKey) {}
    have h1 := h true
    have h0 := h false
    simp only [if_true] at h1
    simp only [Bool.false_eq_true, if_false] at h0
    simp only [Attacker.exec, this]
    simp only [if_true, Bool.false_eq_true, if_false, h1, h0, prob_map_true, prob_map_false]
    ring

/-- **C98.** The probability that an attacker makes readers accept a block which the sender did not make for that identifier and number, or other metadata, is at
most the probability that an explicit attacker does so with the symmetric scheme alone, the key being derived from a random element and used for nothing else,
plus twice the advantage of an explicit reduction to the bilinear Diffie-Hellman problem. -/
theorem C98_integrity [Fintype K] [Fintype Nonce] [Nonempty Nonce] (e : External Key Nonce) (c : Curve K P Q QP T)
    (hT : ∀ m : T, ∃ x : K, m = x • c.genT) (cs : Codecs K P Q T) (t : Target) (max size : Nat) {p : Policy} {attrs : List Attribute} {gamma : List UInt32}
    (hg : List.Forall₂ p.Top attrs gamma) (A : MasterPublicKey P T → DelegationKey Q → Forger K Q QP) (hA : ∀ pk dk, (A pk dk).Fair gamma) :
    prob (forgeryGame e c cs t max size p attrs A) ≤ prob (symmetricForgery e c cs max (demForger c cs t size p attrs A)) +
      2 * |prob ((bdhReal c).bind (distinguisher c size gamma (kemForger e c cs t max A))) -
        prob ((bdhRandom c).bind (distinguisher c size gamma (kemForger e c cs t max A)))| := by
  rw [← attributesValues_iff] at hg
  have hkem := (C80_selective_security c hT t size gamma (kemForger e c cs t max A)
    fun pk dk x0 x1 => Forger.lower_fair e c cs t max x0 x1 _ _ (hA pk dk)).2
  have key : prob (selectiveGame c t size gamma (kemForger e c cs t max A)) =
      (prob (forgeryGame e c cs t max size p attrs A) + 1 - prob (symmetricForgery e c cs max (demForger c cs t size p attrs A))) / 2 := by
    rw [symmetricForgery_mixed]
    have hF : forgeryGame e c cs t max size p attrs A = (PMF.uniformOfFintype K).bind fun s => (PMF.uniformOfFintype K).bind fun y =>
        (PMF.uniformOfFintype (Fin size → K)).bind fun rnd => (PMF.uniformOfFintype K).bind fun _ => (PMF.uniformOfFintype K).bind fun x1 =>
          mixedForgery e c cs t max size p attrs A s y rnd x1 x1 := by
      unfold forgeryGame
      simp only [forgeryRun_mixed, PMF.bind_const]
    rw [hF]
    unfold selectiveGame
    refine prob_half fun s => prob_half fun y => ?_
    rw [PMF.bind_comm]
    refine prob_half fun rnd => ?_
    rw [prob_uniform]
    simp only [Fintype.sum_bool, Fintype.card_bool, kemForger_run e c cs t max size hg A]
    push_cast
    ring
  have := abs_le.1 hkem
  linarith [this.2, key]

/-! ### What readers do -/

theorem readTail_eq (e : External Key Nonce) (key : Key) (tail : Bytes) :
    (if tail.isEmpty then .ok Metadata.default else do
      let n ← scanNext tail e.nonceLen
      let nonce ← e.nonceDec n.1
      let sz ← scanU32 n.2
      let em ← scanNext sz.2 sz.1
      let mb ← e.decrypt key em.1 nonce none
      (e.metaDec mb).mapErr fun _ => .cryptoError : Out Metadata).toOption = readTail e key tail := by
  unfold readTail
  by_cases h0 : tail = []
  · subst h0; rfl
  rw [if_neg (by simpa using h0), if_neg h0]
  unfold scanU32 scanNext
  by_cases h1 : e.nonceLen ≤ tail.length
  · rw [if_pos h1, Res.ok_bind]
    dsimp only
    by_cases h2 : 4 ≤ (tail.drop e.nonceLen).length
    · rw [List.length_drop] at h2
      rw [if_neg (show ¬ tail.length < e.nonceLen + 4 by omega)]
      simp only [if_pos (show 4 ≤ (tail.drop e.nonceLen).length by rw [List.length_drop]; omega), Res.ok_bind, List.drop_drop]
      by_cases h3 : (ofBe32 ((tail.drop e.nonceLen).take 4)).toNat ≤ (tail.drop (e.nonceLen + 4)).length
      · rw [if_pos h3, if_neg (by omega)]
        simp only [Res.ok_bind, Res.toOption_bind]
        cases (e.nonceDec (tail.take e.nonceLen)).toOption with
        | none => rfl
        | some ν =>
          simp only [Option.bind_some, Option.bind_eq_bind]
          congr 1; funext mb
          cases e.metaDec mb <;> rfl
      · rw [if_neg h3, if_pos (by omega)]
        cases e.nonceDec (tail.take e.nonceLen) <;> rfl
    · rw [if_neg h2, if_pos (by rw [List.length_drop] at h2; omega)]
      cases e.nonceDec (tail.take e.nonceLen) <;> rfl
  · rw [if_neg h1, if_pos (by omega)]
    rfl

/-- **C98.** The place of a block in a message is part of what the symmetric scheme authenticates: a block is made, and accepted, for an identifier and a number
exactly if the scheme makes and accepts it for the same identifier and the same number, within the limits of size. -/
theorem C98_places (e : External Key Nonce) (max : Nat) (k : Key) (uid : Bytes) (i : Nat) (p c : Bytes) :
    (∀ n, encryptHybridBlock e max k uid i p n = .ok c ↔ p ≠ [] ∧ p.length ≤ max ∧ e.blockEnc max k uid i p n = .ok c) ∧
      (decryptHybridBlock e max k uid i c = .ok p ↔ c ≠ [] ∧ c.length ≤ max + e.overhead ∧ e.blockDec max k uid i c = .ok p) := by
  constructor
  · intro n
    unfold encryptHybridBlock
    by_cases h : p = []
    · simp [h]
    · rw [if_neg (by simpa using h)]
      by_cases h' : p.length > max
      · rw [if_pos h']
        simp only [reduceCtorEq, false_iff]
        omega
      · rw [if_neg h']
        simp [h, Nat.le_of_not_gt h']
  · unfold decryptHybridBlock
    by_cases h : c = []
    · simp [h]
    · rw [if_neg (by simpa using h)]
      by_cases h' : c.length > max + e.overhead
      · rw [if_pos h']
        simp only [reduceCtorEq, false_iff]
        omega
      · rw [if_neg h']
        simp [h, Nat.le_of_not_gt h']

/-- **C98.** What the attempts of the game are: whoever has an authorised key for an honest header, and is given its encapsulation with any bytes behind, gets the
key of the header and the metadata that the holder of this key reads in these bytes, or nothing. -/
theorem C98_reading {e : External Key Nonce} {tag : Nat} (he : e.Lawful tag) (c : Curve K P Q QP T) {cs : Codecs K P Q T} (hcs : cs.Lawful) {t t' : Target}
    (ht : 32 ≤ t'.bits) {p : Policy} (hw : p.WF) {rnd : Nat → K} {y : K} {mk : MasterKey K P Q T} (hmk : engineGenerateMasterKey (bls c) p rnd y = .ok mk)
    {ap : AccessPolicy} {key : DecryptionKey K QP Q} (hkey : UserKey c p mk ap key) {atts : List Attribute} {md : Option Metadata} {random : T} {s : K}
    {nonce : Nonce} {h : EncryptedHeader Key} (henc : encryptHybridHeader e (bls c) cs t p mk.pubKey atts md random s nonce = .ok h)
    (hsat : ap.Sat p (· ∈ atts)) :
    ∃ head ek own, Announces head ek ∧ h.encryptedHeaderBytes = head ++ ek ++ own ∧
      ∀ tail, (decryptHybridHeader e (bls c) cs t' key (head ++ ek ++ tail)).toOption.map (fun x => (x.symmetricKey, x.metaData)) =
        (readTail e h.symmetricKey tail).map fun m => (h.symmetricKey, m) := by
  obtain ⟨kb, ek, hg, hk, hl, hcase⟩ := encryptHybridHeader_inv henc
  obtain ⟨hd, _⟩ := C33_authorised (t' := t') c hcs he hw hmk hkey hg (fits32 ht hl) hsat
  obtain ⟨own, hown⟩ : ∃ own, h.encryptedHeaderBytes = be32 ek.length.toUInt32 ++ ek ++ own := by
    rcases hcase with ⟨_, hb⟩ | ⟨m, mb, em, _, _, _, _, hb⟩
    · exact ⟨[], by rw [hb]; simp⟩
    · exact ⟨_, by rw [hb]⟩
  refine ⟨be32 ek.length.toUInt32, ek, own, announces_be32 hl, hown, fun tail => ?_⟩
  rw [decryptHybridHeader_frame hl, hd, Res.ok_bind, hk, Res.ok_bind, ← readTail_eq, Res.toOption_bind]
  cases (if tail.isEmpty then .ok Metadata.default else do
      let n ← scanNext tail e.nonceLen
      let nonce ← e.nonceDec n.1
      let sz ← scanU32 n.2
      let em ← scanNext sz.2 sz.1
      let mb ← e.decrypt h.symmetricKey em.1 nonce none
      (e.metaDec mb).mapErr fun _ => .cryptoError : Out Metadata) <;> rfl

/-- The attacker who asks for a key, opens the header and makes a block. -/
def writer (e : External Key Nonce) (c : Curve K P Q QP T) (cs : Codecs K P Q T) (t : Target) (max : Nat) (p : Policy) (ap : AccessPolicy) (ν : Nonce) :
    Forger K Q QP :=
  .key p ap fun k => .header none fun r =>
    match k, r with
    | some k, some r =>
      match decryptHybridHeader e (bls c) cs t k r with
      | .ok h => match encryptHybridBlock e max h.symmetricKey [] 0 [0] ν with
        | .ok b => .tryBlock [] 0 b fun _ => .stop
        | _ => .stop
      | _ => .stop
    | _, _ => .stop

/-- **C98.** The rule of the game is needed: with an authorised key the game is won in every run with a master key. -/
theorem C98_authorised_wins [Fintype K] [Fintype Nonce] [Nonempty Nonce] {e : External Key Nonce} {tag : Nat} (he : e.Lawful tag) (c : Curve K P Q QP T)
    {cs : Codecs K P Q T} (hcs : cs.Lawful) {t : Target} (ht : 32 ≤ t.bits) {max : Nat} (hmax : 0 < max) {p : Policy} (hw : p.WF) {attrs : List Attribute}
    {rnd : Fin p.maxAttributeCreations.toNat → K} {y : K} {mk : MasterKey K P Q T} (hmk : engineGenerateMasterKey (bls c) p (pad rnd) y = .ok mk)
    {ap : AccessPolicy} (hv : ap.Valid p) (hr : ∀ b v, ap.Grants p b → p.HasValue b v → v.toNat < p.maxAttributeCreations.toNat)
    (hsat : ap.Sat p (· ∈ attrs)) {s x : K} (henc : ∃ ct, engineEncrypt (bls c) t p mk.pubKey attrs (x • c.genT) s = .ok ct)
    (hlen : ciphertextLen attrs.length < 2 ^ 32) (ν : Nonce) :
    forgeryRun e c cs t max p.maxAttributeCreations.toNat p attrs (fun _ _ => writer e c cs t max p ap ν) s y rnd x = .pure true := by
  have hmk' : generateMasterKey (bls c) p.maxAttributeCreations.toNat (pad rnd) y = .ok mk := hmk
  obtain ⟨ct, henc⟩ := henc
  unfold forgeryRun
  rw [hmk']
  dsimp only
  unfold writer
  simp only [Forger.exec, userKeys, PMF.bind_map, Bool.false_eq_true, if_false]
  refine bind_const' fun r => ?_
  simp only [Function.comp]
  refine bind_const' fun ν' => ?_
  obtain ⟨tI, htl, hnz, rfl⟩ := generateMasterKey_inv c hmk'
  obtain ⟨key, hkey⟩ := (C07_key_generation_success c hw hnz y ap (pad r)).1 ⟨hv, by rw [htl]; exact hr⟩
  have huk : UserKey c p ⟨⟨tI, y⟩, pubOf c tI y, delOf c tI⟩ ap key := .generate _ hkey
  obtain ⟨h, hh⟩ := C35_header_encrypts (md := none) (nonce := ν') c hcs he hw hmk henc hlen (by rintro m' ⟨⟩)
  have hdec := C35_header_round_trip c ht hcs he hw hmk huk (by rintro m' ⟨⟩) hh hsat
  obtain ⟨b, hb⟩ := he.block_total max h.symmetricKey [] 0 [0] ν (by simp) (by simp; omega) (by simp) (by simp)
  obtain ⟨hbl, hbd⟩ := he.block max h.symmetricKey [] 0 [0] ν b (by simp) (by simp; omega) hb
  have henb : encryptHybridBlock e max h.symmetricKey [] 0 [0] ν = .ok b := by
    unfold encryptHybridBlock
    rw [if_neg (by simp), if_neg (by simp; omega)]
    exact hb
  have hdeb : decryptHybridBlock e max h.symmetricKey [] 0 b = .ok [0] := by
    unfold decryptHybridBlock
    rw [if_neg (by intro h; rw [List.isEmpty_iff] at h; rw [h] at hbl; simp at hbl; omega), if_neg (by rw [hbl]; simp; omega)]
    exact hbd
  have hh' := hh
  dsimp only at hh'
  simp only [hkey, hh', Res.toOption_ok, Option.map_some, hdec, henb, Forger.exec, hdeb, Option.bind_some, List.not_mem_nil, if_false]

namespace Demo

/-- An attacker on messages for `Low` and `HR` with a key for `MKG`, who obtains a header and a block and gives the block to readers as the block of another
resource, then as another block, then gives them other metadata. -/
def mover (look : MasterPublicKey F F → DelegationKey F → Option (DecryptionKey F F F) → Option Bytes → Option Bytes → Bytes)
    (pk : MasterPublicKey F F) (dk : DelegationKey F) : Forger F F F :=
  .key policy (.attr mkg) fun k => .header (some metadata) fun h => .block [1] 0 [4, 5] fun b =>
    .tryBlock [2] 0 (b.getD []) fun _ => .tryBlock [1] 1 (b.getD []) fun _ => .tryTail (look pk dk k h b) fun _ => .stop

theorem mover_fair (look) (pk dk) : (mover look pk dk).Fair [1, 4] := ⟨policy_reachable, mkg_unauthorised, fun _ _ _ _ _ _ => trivial⟩

/-- **C98** for this attacker. -/
example (look) : prob (forgeryGame symmetric curveF codecs .release64 10 8 policy [low, hr] (mover look)) ≤
    prob (symmetricForgery symmetric curveF codecs 10 (demForger curveF codecs .release64 8 policy [low, hr] (mover look))) +
      2 * |prob ((bdhReal curveF).bind (distinguisher curveF 8 [1, 4] (kemForger symmetric curveF codecs .release64 10 (mover look)))) -
        prob ((bdhRandom curveF).bind (distinguisher curveF 8 [1, 4] (kemForger symmetric curveF codecs .release64 10 (mover look))))| :=
  C98_integrity symmetric curveF (fun m => ⟨m, by simp [curveF]⟩) codecs .release64 10 8 (attributesValues_iff.1 (by decide +kernel)) (mover look) (mover_fair look)

/-- With a key for `High && (HR || MKG)` the game is won. -/
example : forgeryRun symmetric curveF codecs .release64 10 8 policy [low, hr] (fun _ _ => writer symmetric curveF codecs .release64 10 policy ap nonce) 7 3
    (fun _ => 2) 5 = .pure true := by
  obtain ⟨mk, hmk⟩ : ∃ mk, engineGenerateMasterKey (bls curveF) policy (Abe.pad fun _ : Fin policy.maxAttributeCreations.toNat => (2 : F)) 3 = .ok mk :=
    exists_of_isOk (by decide +kernel)
  refine C98_authorised_wins symmetric_lawful curveF codecs_lawful (by decide) (by decide) (reachable_wf policy_reachable) hmk ap_authorised.1.1 ap_authorised.1.2
    ap_sat ?_ (by decide) nonce
  have : (match engineGenerateMasterKey (bls curveF) policy (Abe.pad fun _ : Fin policy.maxAttributeCreations.toNat => (2 : F)) 3 with
    | .ok mk => (match engineEncrypt (bls curveF) .release64 policy mk.pubKey [low, hr] ((5 : F) • curveF.genT) 7 with | .ok _ => true | _ => false)
    | _ => false) = true := by decide +kernel
  rw [hmk] at this
  dsimp only at this
  revert this
  cases engineEncrypt (bls curveF) .release64 policy mk.pubKey [low, hr] ((5 : F) • curveF.genT) 7 with
  | ok ct => exact fun _ => ⟨ct, rfl⟩
  | err e => simp
  | panic => simp

/-- A reader of the header of the example, without what follows the encapsulation, with the bytes `1` and with a nonce and an empty text behind it. -/
example : ∃ h head ek own, encryptHybridHeader symmetric (bls curveF) codecs .debug64 policy mkF.pubKey [low, hr] (some metadata) 5 7 nonce = .ok h ∧
    h.encryptedHeaderBytes = head ++ ek ++ own ∧ ∃ key, UserKey curveF policy mkF ap key ∧
      ((decryptHybridHeader symmetric (bls curveF) codecs .debug64 key (head ++ ek)).toOption.map fun x => (x.symmetricKey, x.metaData)) =
        some (h.symmetricKey, .default) ∧
      ((decryptHybridHeader symmetric (bls curveF) codecs .debug64 key (head ++ ek ++ [1])).toOption.map fun x => (x.symmetricKey, x.metaData)) = none := by
  obtain ⟨h, hh⟩ := header_exists
  obtain ⟨key, hkey⟩ := keyF_exists
  obtain ⟨head, ek, own, _, h1, h2⟩ := C98_reading (t' := .debug64) symmetric_lawful curveF codecs_lawful (by decide) (reachable_wf policy_reachable) mkF_eq
    (.generate _ hkey) hh ap_sat
  refine ⟨h, head, ek, own, hh, h1, key, .generate _ hkey, ?_, ?_⟩
  · have := h2 []
    rwa [List.append_nil] at this
  · exact h2 [1]

end Demo

end Abe

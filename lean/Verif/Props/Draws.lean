import Verif.Spec.Draws
import Verif.Props.Reveal
import Verif.Props.Generic

/-!
# Random draws that are zero or repeated

Property C96: what the confidentiality of headers and keys loses if a random draw is 0 or is used twice, and how rarely uniform draws are so.
-/

namespace Abe

open Finset

set_option linter.unusedSectionVars false

section
variable {K G1 G2 G3 Gt Key Nonce : Type} [Field K] [DecidableEq K]
variable {e : External Key Nonce} {bm : BilinearMap K G1 G2 G3 Gt} {cs : Codecs K G2 G3 Gt} {t : Target} {p : Policy} {pub : MasterPublicKey G2 Gt}
  {atts : List Attribute} {md : Option Metadata} {random : Gt} {s : K} {nonce : Nonce} {h : EncryptedHeader Key}

theorem maskedBytes_header (hcs : cs.Lawful) (henc : encryptHybridHeader e bm cs t p pub atts md random s nonce = .ok h) :
    ∃ gb, cs.gt.enc (bm.gtMul random (bm.gtExp pub.y s)) = .ok (maskedBytes h.encryptedHeaderBytes) ∧ cs.gt.enc random = .ok gb ∧
      e.keyDec (e.shake gb e.keyLen) = .ok h.symmetricKey := by
  obtain ⟨kb, ek, hg, hk, hl, hcase⟩ := encryptHybridHeader_inv henc
  obtain ⟨ct, gb, h1, h2, h3, h4⟩ := generateSymmetricKey_inv hg
  dsimp only at h2 h4
  subst h4
  refine ⟨gb, ?_, h3, hk⟩
  obtain ⟨tail, hb⟩ : ∃ tail, h.encryptedHeaderBytes = be32 ek.length.toUInt32 ++ (ek ++ tail) := by
    rcases hcase with ⟨_, hb⟩ | ⟨m, mb, em, _, _, _, _, hb⟩
    · exact ⟨[], by rw [hb]; simp⟩
    · exact ⟨_, by rw [hb, List.append_assoc]⟩
  unfold engineEncrypt at h1
  obtain ⟨vs, hv, h1⟩ := Res.bind_eq_ok.1 h1
  unfold encrypt at h1
  split at h1
  · obtain ⟨_, _, h1⟩ := Res.bind_eq_ok.1 h1
    simp at h1
  obtain ⟨eI, h5, h1⟩ := Res.bind_eq_ok.1 h1
  simp only [Res.ok.injEq] at h1
  subst h1
  obtain ⟨gamma, g1, h2⟩ := Res.bind_eq_ok.1 h2
  obtain ⟨ep, g2, h2⟩ := Res.bind_eq_ok.1 h2
  obtain ⟨ei, g3, h2⟩ := Res.bind_eq_ok.1 h2
  simp only [Res.ok.injEq] at h2
  dsimp only at g1 g2 g3
  have hep : ep.length = 288 := by
    obtain ⟨b, e1, e2⟩ := hcs.gt.enc (bm.gtMul random (bm.gtExp pub.y s))
    rw [g2] at e1
    simp only [Res.ok.injEq] at e1
    rw [e1, e2]
  have hw0 : wordAt h.encryptedHeaderBytes 0 = ek.length := by
    rw [wordAt_at (o := 0) (x := []) (r := ek ++ tail) (n := ek.length.toUInt32) hb rfl, toNat_toUInt32 hl]
  rw [g2]
  refine congrArg Res.ok ?_
  unfold maskedBytes
  rw [hw0, hb, ← h2]
  have hx : (gamma ++ ei ++ ep).length + 4 - 288 = (be32 (gamma ++ ei ++ ep).length.toUInt32 ++ (gamma ++ ei)).length := by
    simp only [List.length_append, be32_length]; omega
  rw [show be32 (gamma ++ ei ++ ep).length.toUInt32 ++ (gamma ++ ei ++ ep ++ tail) =
    (be32 (gamma ++ ei ++ ep).length.toUInt32 ++ (gamma ++ ei)) ++ (ep ++ tail) by simp, hx, List.drop_left, ← hep, List.take_left]

end

section
variable {K P Q QP T : Type} [Field K] [DecidableEq K] [AddCommGroup P] [Module K P] [AddCommGroup Q] [Module K Q] [AddCommGroup T] [Module K T]
variable {t : Target} {tI : List K} {y s : K} {msg : T} {gamma : List UInt32} {ct : CipherText P T}

theorem encrypt_lt (c : Curve K P Q QP T) (h : encrypt (bls c) t msg gamma (pubOf c tI y) s = .ok ct) : gamma.length < tI.length := by
  unfold encrypt at h
  split at h
  · obtain ⟨_, _, h⟩ := Res.bind_eq_ok.1 h
    simp at h
  · rename_i hn
    simp only [pubOf, List.length_map] at hn
    omega

theorem encrypt_in (c : Curve K P Q QP T) (h : encrypt (bls c) t msg gamma (pubOf c tI y) s = .ok ct) : ∀ v ∈ gamma, v.toNat < tI.length := by
  have hl := encrypt_lt c h
  rcases encrypt_cases c t tI y s msg gamma with ⟨_, _, g⟩ | g | ⟨_, g, _⟩ | ⟨_, _, g⟩
  · rw [g] at h; simp at h
  · omega
  · exact g
  · rw [g] at h; simp at h

theorem encrypt_eq (c : Curve K P Q QP T) (h : encrypt (bls c) t msg gamma (pubOf c tI y) s = .ok ct) : ct = ctOf c tI y s msg gamma := by
  rw [encrypt_ok c t tI y s msg gamma (encrypt_lt c h) (encrypt_in c h)] at h
  simpa using h.symm

theorem keyGeneration_inv {bm : BilinearMap K QP P Q T} {m : Msp Int} {priv : MasterPrivateKey K} {rnd : Nat → K} {key : DecryptionKey K QP Q}
    (h : keyGeneration bm m priv rnd = .ok key) : ∃ u, sharingVector m.nbCol priv.y rnd = .ok u ∧
      ∀ (i : Nat) row, m.matrix[i]? = some row → ∃ x, keyGenRow bm m priv u (row, i) = .ok x ∧ key.rawDI[i]? = some x.2 ∧ key.dI[i]? = some x.1 := by
  unfold keyGeneration at h
  obtain ⟨u, hu, h⟩ := Res.bind_eq_ok.1 h
  obtain ⟨ds, hds, h⟩ := Res.bind_eq_ok.1 h
  simp only [Res.ok.injEq] at h
  subst h
  refine ⟨u, hu, fun i row hr => ?_⟩
  have hf := mapRes_eq_ok.1 hds
  have hz : m.matrix.zipIdx[i]? = some (row, i) := by rw [List.getElem?_zipIdx, hr]; simp
  obtain ⟨x, hx, hx'⟩ := forall₂_get hf.flip hz
  exact ⟨x, hx', by simp [hx], by simp [hx]⟩

end

section
variable {K P Q QP T Key Nonce : Type} [Field K] [DecidableEq K] [AddCommGroup P] [Module K P] [AddCommGroup Q] [Module K Q] [AddCommGroup T] [Module K T]
variable {e : External Key Nonce} {cs : Codecs K P Q T} {t t' : Target} {p p' : Policy} {atts atts' : List Attribute} {md md' : Option Metadata}
  {random random' : T} {s s' : K} {nonce nonce' : Nonce} {h h' : EncryptedHeader Key}

/-- **C96**, scalar 0: if the scalar drawn for a header is 0, everyone reads the symmetric key off the header. -/
theorem C96_zero_scalar (c : Curve K P Q QP T) (hcs : cs.Lawful) {pub : MasterPublicKey P T}
    (henc : encryptHybridHeader e (bls c) cs t p pub atts md random 0 nonce = .ok h) : peek e h.encryptedHeaderBytes = .ok h.symmetricKey := by
  obtain ⟨gb, h1, h2, h3⟩ := maskedBytes_header hcs henc
  have : (bls c).gtMul random ((bls c).gtExp pub.y 0) = random := by simp [bls]
  rw [this, h2] at h1
  simp only [Res.ok.injEq] at h1
  unfold peek
  rw [← h1, h3]

/-- **C96**, master secret 0: if the master secret drawn at set-up is 0, which set-up does not refuse, everyone reads the symmetric keys off all headers. -/
theorem C96_zero_secret (c : Curve K P Q QP T) (hcs : cs.Lawful) {size : Nat} {rnd : Nat → K} {mk : MasterKey K P Q T}
    (hmk : generateMasterKey (bls c) size rnd 0 = .ok mk)
    (henc : encryptHybridHeader e (bls c) cs t p mk.pubKey atts md random s nonce = .ok h) : peek e h.encryptedHeaderBytes = .ok h.symmetricKey := by
  obtain ⟨tI, _, _, rfl⟩ := generateMasterKey_inv c hmk
  obtain ⟨gb, h1, h2, h3⟩ := maskedBytes_header hcs henc
  have : (bls c).gtMul random ((bls c).gtExp (pubOf c tI 0).y s) = random := by simp [bls, pubOf]
  dsimp only at h1
  rw [this, h2] at h1
  simp only [Res.ok.injEq] at h1
  unfold peek
  rw [← h1, h3]

/-- **C96**, no other scalar shows the element: the masked element is the element exactly if the scalar or the master secret is 0. -/
theorem C96_shown_iff (c : Curve K P Q QP T) {size : Nat} {rnd : Nat → K} {y : K} {mk : MasterKey K P Q T}
    (hmk : generateMasterKey (bls c) size rnd y = .ok mk) {gamma : List UInt32} {msg : T} {ct : CipherText P T}
    (henc : encrypt (bls c) t msg gamma mk.pubKey s = .ok ct) : ct.ePrime = msg ↔ s = 0 ∨ y = 0 := by
  obtain ⟨tI, _, _, rfl⟩ := generateMasterKey_inv c hmk
  unfold encrypt at henc
  split at henc
  · obtain ⟨_, _, henc⟩ := Res.bind_eq_ok.1 henc
    simp at henc
  obtain ⟨eI, h5, h1⟩ := Res.bind_eq_ok.1 henc
  simp only [Res.ok.injEq] at h1
  subst h1
  simp [bls, pubOf, c.genT_ne_zero]

/-- **C96**, repeated scalars: if two headers, for whatever policies, attributes and metadata, were made with the same scalar, everyone who knows the element
of one, in particular every user who opens it, knows the symmetric key of the other. -/
theorem C96_repeated_scalar (c : Curve K P Q QP T) (hcs : cs.Lawful) {pub : MasterPublicKey P T}
    (henc : encryptHybridHeader e (bls c) cs t p pub atts md random s nonce = .ok h)
    (henc' : encryptHybridHeader e (bls c) cs t' p' pub atts' md' random' s nonce' = .ok h') :
    transfer e cs h.encryptedHeaderBytes random h'.encryptedHeaderBytes = .ok h'.symmetricKey := by
  obtain ⟨gb, h1, _, _⟩ := maskedBytes_header hcs henc
  obtain ⟨gb', h1', h2', h3'⟩ := maskedBytes_header hcs henc'
  obtain ⟨b, e1, e2⟩ := hcs.gt.enc ((bls c).gtMul random ((bls c).gtExp pub.y s))
  have d := hcs.gt.round _ _ [] h1
  have d' := hcs.gt.round _ _ [] h1'
  rw [List.append_nil] at d d'
  unfold transfer
  rw [d, d', Res.ok_bind, Res.ok_bind]
  have : (bls c).gtMul random' ((bls c).gtExp pub.y s) - (bls c).gtMul random ((bls c).gtExp pub.y s) + random = random' := by
    simp only [bls]; abel
  rw [this, h2', Res.ok_bind, h3']

/-- **C96**, repeated scalars are visible: ciphertexts with a common label show whether their scalars are the same. -/
theorem C96_repeat_visible (c : Curve K P Q QP T) {size : Nat} {rnd : Nat → K} {y : K} {mk : MasterKey K P Q T}
    (hmk : generateMasterKey (bls c) size rnd y = .ok mk) {gamma gamma' : List UInt32} {msg msg' : T} {ct ct' : CipherText P T}
    (henc : encrypt (bls c) t msg gamma mk.pubKey s = .ok ct) (henc' : encrypt (bls c) t' msg' gamma' mk.pubKey s' = .ok ct') {i j : Nat} {v : UInt32}
    (hi : gamma[i]? = some v) (hj : gamma'[j]? = some v) : ct.eI[i]? = ct'.eI[j]? ↔ s = s' := by
  obtain ⟨tI, _, hnz, rfl⟩ := generateMasterKey_inv c hmk
  have hin := hi
  rw [encrypt_eq c henc, encrypt_eq c henc']
  have hv := encrypt_in c henc v (List.mem_of_getElem? hi)
  simp only [ctOf, List.getElem?_map, hi, hj, Option.map_some, Option.some.injEq]
  have hne : tOf tI v ≠ 0 := by rw [← tOf_eq hv]; exact hnz _ (List.getElem_mem hv)
  constructor
  · intro h
    rw [← sub_eq_zero, ← sub_smul, ← sub_mul, smul_eq_zero, mul_eq_zero] at h
    rcases h with (h | h) | h
    · exact sub_eq_zero.1 h
    · exact absurd h hne
    · exact absurd h c.genP_ne_zero
  · rintro rfl; rfl

/-- **C96**, repeated scalars at set-up: if two slots have the same scalar, ciphertexts for one label are ciphertexts for the other: exchanging the labels in
a ciphertext gives what encryption for the exchanged labels yields. -/
theorem C96_repeated_slot (c : Curve K P Q QP T) {size : Nat} {rnd : Nat → K} {y : K} {mk : MasterKey K P Q T}
    (hmk : generateMasterKey (bls c) size rnd y = .ok mk) {gamma : List UInt32} {msg : T} {ct : CipherText P T}
    (henc : encrypt (bls c) t msg gamma mk.pubKey s = .ok ct) (f : UInt32 → UInt32) (hf : ∀ v ∈ gamma, (f v).toNat < size)
    (hr : ∀ v ∈ gamma, rnd (f v).toNat = rnd v.toNat) : encrypt (bls c) t msg (gamma.map f) mk.pubKey s = .ok ⟨gamma.map f, ct.ePrime, ct.eI⟩ := by
  have h0 := hmk
  obtain ⟨tI, hlen, hnz, rfl⟩ := generateMasterKey_inv c hmk
  have htI : tI = genScalars rnd size := by
    unfold generateMasterKey at h0
    obtain ⟨inv, _, h0⟩ := Res.bind_eq_ok.1 h0
    simp only [Res.ok.injEq, MasterKey.mk.injEq, MasterPrivateKey.mk.injEq] at h0
    exact h0.1.1.symm
  have ht : ∀ v : UInt32, v.toNat < size → tOf tI v = rnd v.toNat := by
    intro v hv
    rw [← tOf_eq (by omega)]
    simp [htI, genScalars]
  have hin := encrypt_in c henc
  have hl : gamma.length < tI.length := encrypt_lt c henc
  rw [encrypt_eq c henc]
  show encrypt (bls c) t msg (gamma.map f) (pubOf c tI y) s = _
  rw [encrypt_ok c t tI y s msg (gamma.map f) (by simpa using hl) (by
    intro a ha
    obtain ⟨v, hv, rfl⟩ := List.mem_map.1 ha
    have := hf v hv
    omega)]
  congr 1
  simp only [ctOf, List.map_map, CipherText.mk.injEq, true_and]
  refine List.map_congr_left fun v hv => ?_
  simp only [Function.comp]
  rw [ht _ (hf v hv), ht _ (by have := hin v hv; omega), hr v hv]

/-- **C96**, repeated draws for keys: of two users whose keys were made with the same draws for formulas with the same number of conjunctions, together they
hold the key, for these draws, of every formula whose rows are among the rows of the two. -/
theorem C96_repeated_key_draws {bm : BilinearMap K QP P Q T} {m₁ m₂ m₃ : Msp Int} {priv : MasterPrivateKey K} {rnd : Nat → K}
    {key₁ key₂ key₃ : DecryptionKey K QP Q} (h₁ : keyGeneration bm m₁ priv rnd = .ok key₁) (h₂ : keyGeneration bm m₂ priv rnd = .ok key₂)
    (h₃ : keyGeneration bm m₃ priv rnd = .ok key₃) (hc₁ : m₁.nbCol = m₃.nbCol) (hc₂ : m₂.nbCol = m₃.nbCol)
    (hrow : ∀ (i : Nat) row, m₃.matrix[i]? = some row → ∃ m ∈ [m₁, m₂], ∃ j : Nat, m.matrix[j]? = some row ∧ m.rowToAttr[j]? = m₃.rowToAttr[i]?) :
    ∀ i < m₃.matrix.length, ∃ (j : Nat) (D : Q) (D' : QP), key₃.rawDI[i]? = some D ∧ key₃.dI[i]? = some D' ∧
      (key₁.rawDI[j]? = some D ∧ key₁.dI[j]? = some D' ∨ key₂.rawDI[j]? = some D ∧ key₂.dI[j]? = some D') := by
  intro i hi
  obtain ⟨u, hu₃, g₃⟩ := keyGeneration_inv h₃
  obtain ⟨x, hx, r₃⟩ := g₃ i _ (List.getElem?_eq_getElem hi)
  obtain ⟨m, hm, j, hj, ha⟩ := hrow i _ (List.getElem?_eq_getElem hi)
  have hsame : ∀ {m : Msp Int}, m.rowToAttr[j]? = m₃.rowToAttr[i]? →
      keyGenRow bm m priv u (m₃.matrix[i], j) = keyGenRow bm m₃ priv u (m₃.matrix[i], i) := by
    intro m ha
    unfold keyGenRow Msp.getAttrFromRow idx
    dsimp only
    rw [ha]
  refine ⟨j, x.2, x.1, r₃.1, r₃.2, ?_⟩
  simp only [List.mem_cons, List.not_mem_nil, or_false] at hm
  rcases hm with rfl | rfl
  · left
    obtain ⟨u', hu', g⟩ := keyGeneration_inv h₁
    rw [hc₁, hu₃] at hu'
    simp only [Res.ok.injEq] at hu'
    subst hu'
    obtain ⟨x', hx', r⟩ := g j _ hj
    rw [hsame ha, hx] at hx'
    simp only [Res.ok.injEq] at hx'
    subst hx'
    exact r
  · right
    obtain ⟨u', hu', g⟩ := keyGeneration_inv h₂
    rw [hc₂, hu₃] at hu'
    simp only [Res.ok.injEq] at hu'
    subst hu'
    obtain ⟨x', hx', r⟩ := g j _ hj
    rw [hsame ha, hx] at hx'
    simp only [Res.ok.injEq] at hx'
    subst hx'
    exact r

theorem toMsp_and {a b : UInt32} (h : a ≠ b) :
    (Node.and (.leaf a) (.leaf b)).toMsp = .ok ⟨2, 2, [[1, 2], [0, -1]], hinsert (hinsert [] a 0) b 1, [a, b]⟩ := by
  have hg : hget (hinsert ([] : List (UInt32 × Nat)) a 0) b = none := by simp [hinsert, hget, h]
  unfold Node.toMsp
  rw [mspLoop, mspLoop.eq_def]
  dsimp only [List.nil_append]
  rw [mspLoop.eq_def]
  dsimp only [List.nil_append]
  rw [mspLoop.eq_def]
  dsimp only [List.nil_append]
  simp [mspAssemble, hget, resize, addFirst]
  unfold hget at hg
  rw [hg]
  rfl

theorem toMsp_and_inv {a b : UInt32} {m : Msp Int} (h : (Node.and (.leaf a) (.leaf b)).toMsp = .ok m) :
    m.nbCol = 2 ∧ m.matrix = [[1, 2], [0, -1]] ∧ m.rowToAttr = [a, b] := by
  by_cases hab : a = b
  · rcases toMsp_spec (.and (.leaf a) (.leaf b)) with ⟨hn, _⟩ | ⟨_, he⟩
    · simp [Node.leaves, hab] at hn
    · rw [h] at he; cases he
  · rw [toMsp_and hab] at h
    simp only [Res.ok.injEq] at h
    subst h
    exact ⟨rfl, rfl, rfl⟩

theorem keyGeneration_and {bm : BilinearMap K QP P Q T} {a b : UInt32} {m : Msp Int} (hm : (Node.and (.leaf a) (.leaf b)).toMsp = .ok m)
    {priv : MasterPrivateKey K} {rnd : Nat → K} {u : List K} (hu : sharingVector 2 priv.y rnd = .ok u) :
    keyGeneration bm m priv rnd = (do
      let x ← keyGenRow bm ⟨2, 2, [], [], [a]⟩ priv u ([1, 2], 0)
      let z ← keyGenRow bm ⟨2, 2, [], [], [b]⟩ priv u ([0, -1], 0)
      .ok ⟨[x.2, z.2], [x.1, z.1], m.convert bm.fromI32⟩) := by
  obtain ⟨h1, h2, h3⟩ := toMsp_and_inv hm
  have ha : keyGenRow bm m priv u ([1, 2], 0) = keyGenRow bm ⟨2, 2, [], [], [a]⟩ priv u ([1, 2], 0) := by
    unfold keyGenRow Msp.getAttrFromRow; rw [h3]; rfl
  have hb : keyGenRow bm m priv u ([0, -1], 1) = keyGenRow bm ⟨2, 2, [], [], [b]⟩ priv u ([0, -1], 0) := by
    unfold keyGenRow Msp.getAttrFromRow; rw [h3]; rfl
  unfold keyGeneration
  rw [h1, h2, hu, Res.ok_bind]
  show (do
    let ds ← mapRes (keyGenRow bm m priv u) [([1, 2], 0), ([0, -1], 1)]
    _) = _
  simp only [mapRes, ha, hb]
  cases keyGenRow bm ⟨2, 2, [], [], [a]⟩ priv u ([1, 2], 0) with
  | err e => rfl
  | panic => rfl
  | ok x => cases keyGenRow bm ⟨2, 2, [], [], [b]⟩ priv u ([0, -1], 0) <;> rfl

/-- **C96**, repeated draws break the resistance to collusion: from the keys for `a & b` and for `a' & b'`, made with the same draws, the first component of one
and the second of the other are the key for `a & b'`, which opens what neither of the two users may open. -/
theorem C96_collusion (c : Curve K P Q QP T) {size : Nat} {rnd : Nat → K} {y : K} {mk : MasterKey K P Q T}
    (hmk : generateMasterKey (bls c) size rnd y = .ok mk) {a b a' b' : UInt32} {m₁ m₂ : Msp Int} (h₁ : (Node.and (.leaf a) (.leaf b)).toMsp = .ok m₁)
    (h₂ : (Node.and (.leaf a') (.leaf b')).toMsp = .ok m₂) (hne : a ≠ b') {rnd' : Nat → K} {key₁ key₂ : DecryptionKey K QP Q}
    (hk₁ : keyGeneration (bls c) m₁ mk.privKey rnd' = .ok key₁) (hk₂ : keyGeneration (bls c) m₂ mk.privKey rnd' = .ok key₂) :
    ∃ m₃, (Node.and (.leaf a) (.leaf b')).toMsp = .ok m₃ ∧
      keyGeneration (bls c) m₃ mk.privKey rnd' = .ok (spliced key₁ key₂ (m₃.convert (bls c).fromI32)) ∧
      ∀ gamma msg ct, a ∈ gamma → b' ∈ gamma → encrypt (bls c) t msg gamma mk.pubKey s = .ok ct →
        decrypt (bls c) ct (spliced key₁ key₂ (m₃.convert (bls c).fromI32)) = .ok (some msg) := by
  obtain ⟨tI, htl, hnz, rfl⟩ := generateMasterKey_inv c hmk
  have h₃ := toMsp_and hne
  refine ⟨_, h₃, ?_⟩
  generalize (⟨2, 2, [[1, 2], [0, -1]], hinsert (hinsert [] a 0) b' 1, [a, b']⟩ : Msp Int) = m₃ at h₃ ⊢
  obtain ⟨u, hu, _⟩ := sharingVector_ok (cols := 2) (by omega) y rnd'
  rw [keyGeneration_and h₁ hu] at hk₁
  rw [keyGeneration_and h₂ hu] at hk₂
  obtain ⟨x₁, hx₁, hk₁⟩ := Res.bind_eq_ok.1 hk₁
  obtain ⟨z₁, hz₁, hk₁⟩ := Res.bind_eq_ok.1 hk₁
  obtain ⟨x₂, hx₂, hk₂⟩ := Res.bind_eq_ok.1 hk₂
  obtain ⟨z₂, hz₂, hk₂⟩ := Res.bind_eq_ok.1 hk₂
  simp only [Res.ok.injEq] at hk₁ hk₂
  subst hk₁ hk₂
  have hkey : keyGeneration (bls c) m₃ ⟨tI, y⟩ rnd' = .ok (spliced ⟨[x₁.2, z₁.2], [x₁.1, z₁.1], m₁.convert (bls c).fromI32⟩
      ⟨[x₂.2, z₂.2], [x₂.1, z₂.1], m₂.convert (bls c).fromI32⟩ (m₃.convert (bls c).fromI32)) := by
    rw [keyGeneration_and h₃ hu, hx₁, hz₂]; rfl
  refine ⟨hkey, fun gamma msg ct ha hb henc => ?_⟩
  have hin := encrypt_in c henc
  rcases toMsp_spec (.and (.leaf a) (.leaf b')) with ⟨_, m, hm, hmf⟩ | ⟨_, hm⟩
  · obtain rfl : m = m₃ := by rw [h₃] at hm; simpa using hm.symm
    have hcov : Covers tI (.and (.leaf a) (.leaf b')) := by
      intro x hx
      have : x.toNat < tI.length := by
        simp only [Node.leaves, List.cons_append, List.nil_append, List.mem_cons, List.not_mem_nil, or_false] at hx
        rcases hx with rfl | rfl
        · exact hin _ ha
        · exact hin _ hb
      exact ⟨this, tOf_ne_zero hnz this⟩
    obtain ⟨lam, h1, h2⟩ := keyGeneration_shares c hmf tI y rnd' hcov
    rw [hkey] at h1
    simp only [Res.ok.injEq] at h1
    rw [h1, encrypt_eq c henc]
    have := (decrypt_keyOf c hmf tI hcov lam h2 y s msg gamma).2.2 ⟨ha, hb⟩
    simpa [ctOf] using this
  · rw [h₃] at hm; cases hm

end

/-! ### How many sequences of draws are bad -/

section
variable {K : Type} [Field K] [DecidableEq K] [Fintype K]

theorem card_update_le {n : Nat} (i : Fin n) (A : Finset (Fin n → K)) (hA : ∀ f ∈ A, ∀ g ∈ A, (∀ k ≠ i, f k = g k) → f = g) :
    A.card * Fintype.card K ≤ Fintype.card (Fin n → K) := by
  rw [← Finset.card_univ (α := K), ← Finset.card_product]
  refine Finset.card_le_card_of_injOn (fun x : (Fin n → K) × K => Function.update x.1 i x.2) (fun _ _ => Finset.mem_univ _) ?_
  rintro ⟨f, x⟩ hf ⟨g, z⟩ hg hfg
  simp only [Finset.coe_product, Set.mem_prod, Finset.mem_coe] at hf hg
  dsimp only at hfg
  have hx : x = z := by simpa using congrFun hfg i
  subst hx
  rw [hA f hf.1 g hg.1 fun k hk => by simpa [Function.update_of_ne hk] using congrFun hfg k]

open Classical in
/-- **C96**, frequency of 0: of all sequences of `n` draws, those with a 0 are at most the fraction `n / q`. -/
theorem C96_zeros (n : Nat) :
    (univ.filter fun f : Fin n → K => ∃ i, f i = 0).card * Fintype.card K ≤ n * Fintype.card (Fin n → K) := by
  have h : (univ.filter fun f : Fin n → K => ∃ i, f i = 0) ⊆ univ.biUnion fun i : Fin n => univ.filter fun f : Fin n → K => f i = 0 := by
    intro f hf
    obtain ⟨i, hi⟩ := (mem_filter.1 hf).2
    exact mem_biUnion.2 ⟨i, mem_univ _, mem_filter.2 ⟨mem_univ _, hi⟩⟩
  calc _ ≤ (∑ i : Fin n, (univ.filter fun f : Fin n → K => f i = 0).card) * Fintype.card K :=
        Nat.mul_le_mul_right _ ((card_le_card h).trans card_biUnion_le)
    _ = ∑ i : Fin n, (univ.filter fun f : Fin n → K => f i = 0).card * Fintype.card K := Finset.sum_mul _ _ _
    _ ≤ ∑ _i : Fin n, Fintype.card (Fin n → K) := Finset.sum_le_sum fun i _ => card_update_le i _ (by
        intro f hf g hg hfg
        funext k
        by_cases hk : k = i
        · rw [hk, (mem_filter.1 hf).2, (mem_filter.1 hg).2]
        · exact hfg k hk)
    _ = _ := by simp

open Classical in
/-- **C96**, frequency of repetitions: of all sequences of `n` draws, those with a repetition are at most the fraction `n (n - 1) / 2 q`. -/
theorem C96_repeats (n : Nat) :
    (univ.filter fun f : Fin n → K => Repeats f).card * (2 * Fintype.card K) ≤ n * (n - 1) * Fintype.card (Fin n → K) := by
  have h : (univ.filter fun f : Fin n → K => Repeats f) ⊆
      (univ.filter fun x : Fin n × Fin n => x.1 < x.2).biUnion fun x => univ.filter fun f : Fin n → K => f x.1 = f x.2 := by
    intro f hf
    obtain ⟨i, j, hij, hf⟩ := (mem_filter.1 hf).2
    exact mem_biUnion.2 ⟨(i, j), mem_filter.2 ⟨mem_univ _, hij⟩, mem_filter.2 ⟨mem_univ _, hf⟩⟩
  have hcount : (univ.filter fun x : Fin n × Fin n => x.1 < x.2).card * 2 = n * (n - 1) := by
    rw [Finset.card_filter, Fintype.sum_prod_type_right]
    have hi : ∀ j : Fin n, (∑ i : Fin n, if (i, j).1 < (i, j).2 then 1 else 0) = (j : Nat) := by
      intro j
      rw [← Finset.card_filter]
      have : (univ.filter fun i : Fin n => (i, j).1 < (i, j).2) = Finset.Iio j := by ext i; simp
      rw [this, Fin.card_Iio]
    rw [Finset.sum_congr rfl fun j _ => hi j, Fin.sum_univ_eq_sum_range (fun i => i) n, Finset.sum_range_id_mul_two]
  calc _ ≤ (∑ x ∈ univ.filter fun x : Fin n × Fin n => x.1 < x.2, (univ.filter fun f : Fin n → K => f x.1 = f x.2).card) * (2 * Fintype.card K) :=
        Nat.mul_le_mul_right _ ((card_le_card h).trans card_biUnion_le)
    _ = 2 * ∑ x ∈ univ.filter fun x : Fin n × Fin n => x.1 < x.2, (univ.filter fun f : Fin n → K => f x.1 = f x.2).card * Fintype.card K := by
        rw [← Finset.sum_mul]; ring
    _ ≤ 2 * ∑ _x ∈ univ.filter fun x : Fin n × Fin n => x.1 < x.2, Fintype.card (Fin n → K) :=
        Nat.mul_le_mul_left _ (Finset.sum_le_sum fun x hx => card_update_le x.1 _ (by
          intro f hf g hg hfg
          have hlt := (mem_filter.1 hx).2
          funext k
          by_cases hk : k = x.1
          · rw [hk, (mem_filter.1 hf).2, (mem_filter.1 hg).2, hfg _ hlt.ne']
          · exact hfg k hk))
    _ = _ := by rw [Finset.sum_const, smul_eq_mul, ← hcount]; ring

end

namespace Demo

/-- A header made with the scalar 0, one made with the master secret 0, and two headers made with the same scalar. -/
example : ∃ h₁ h₂ h₃ h₄ mk, encryptHybridHeader symmetric (bls curveF) codecs .debug64 policy mkF.pubKey [low, hr] (some metadata) 5 0 nonce = .ok h₁ ∧
    peek symmetric h₁.encryptedHeaderBytes = .ok h₁.symmetricKey ∧
    generateMasterKey (bls curveF) 8 drawsF 0 = .ok mk ∧
    encryptHybridHeader symmetric (bls curveF) codecs .debug64 policy mk.pubKey [low, hr] (some metadata) 5 7 nonce = .ok h₂ ∧
    peek symmetric h₂.encryptedHeaderBytes = .ok h₂.symmetricKey ∧
    encryptHybridHeader symmetric (bls curveF) codecs .debug64 policy mkF.pubKey [low, hr] (some metadata) 5 7 nonce = .ok h₃ ∧
    encryptHybridHeader symmetric (bls curveF) codecs .release32 policy mkF.pubKey [rnd'] none 6 7 nonce = .ok h₄ ∧
    transfer symmetric codecs h₃.encryptedHeaderBytes 5 h₄.encryptedHeaderBytes = .ok h₄.symmetricKey := by
  have e₁ : ∃ h₁, encryptHybridHeader symmetric (bls curveF) codecs .debug64 policy mkF.pubKey [low, hr] (some metadata) 5 0 nonce = .ok h₁ :=
    exists_of_isOk (by decide +kernel)
  have e₂ : ∃ h, (generateMasterKey (bls curveF) 8 drawsF 0 >>= fun mk =>
      encryptHybridHeader symmetric (bls curveF) codecs .debug64 policy mk.pubKey [low, hr] (some metadata) 5 7 nonce) = .ok h :=
    exists_of_isOk (by decide +kernel)
  have e₄ : ∃ h₄, encryptHybridHeader symmetric (bls curveF) codecs .release32 policy mkF.pubKey [rnd'] none 6 7 nonce = .ok h₄ :=
    exists_of_isOk (by decide +kernel)
  obtain ⟨h₁, e₁⟩ := e₁
  obtain ⟨h₂, e₂⟩ := e₂
  obtain ⟨mk, em, e₂⟩ := Res.bind_eq_ok.1 e₂
  obtain ⟨h₃, e₃⟩ := header_exists
  obtain ⟨h₄, e₄⟩ := e₄
  exact ⟨h₁, h₂, h₃, h₄, mk, e₁, C96_zero_scalar curveF codecs_lawful e₁, em, e₂, C96_zero_secret curveF codecs_lawful em e₂, e₃, e₄,
    C96_repeated_scalar curveF codecs_lawful e₃ e₄⟩

/-- With the scalar 7 the element 5 is not shown, and two ciphertexts with the label 4 show that their scalars differ. -/
example : ∃ ct ct', encrypt (bls curveF) .release64 5 [1, 4] mkF.pubKey 7 = .ok ct ∧ encrypt (bls curveF) .release64 6 [4, 2, 3] mkF.pubKey 8 = .ok ct' ∧
    ct.ePrime ≠ 5 ∧ ct.eI[1]? ≠ ct'.eI[0]? := by
  have e : ∃ ct, encrypt (bls curveF) .release64 5 [1, 4] mkF.pubKey 7 = .ok ct := exists_of_isOk (by decide +kernel)
  have e' : ∃ ct, encrypt (bls curveF) .release64 6 [4, 2, 3] mkF.pubKey 8 = .ok ct := exists_of_isOk (by decide +kernel)
  obtain ⟨ct, e⟩ := e
  obtain ⟨ct', e'⟩ := e'
  have hmk : generateMasterKey (bls curveF) 8 drawsF 3 = .ok mkF := mkF_eq
  refine ⟨ct, ct', e, e', fun h => ?_, fun h => ?_⟩
  · exact absurd ((C96_shown_iff curveF hmk e).1 h) (by decide)
  · exact absurd ((C96_repeat_visible curveF hmk e e' (v := 4) rfl rfl).1 h) (by decide)

def alike (i : Nat) : Demo.F := if i = 2 ∨ i = 5 then 3 else 4

/-- Set-up with slots 2 and 5 alike: a ciphertext for label 2 and 3 becomes one for 5 and 3. -/
example : ∃ mk ct, generateMasterKey (bls curveF) 8 alike 3 = .ok mk ∧
    encrypt (bls curveF) .release64 5 [2, 3] mk.pubKey 7 = .ok ct ∧
    encrypt (bls curveF) .release64 5 [5, 3] mk.pubKey 7 = .ok ⟨[5, 3], ct.ePrime, ct.eI⟩ := by
  have e : ∃ ct, (generateMasterKey (bls curveF) 8 alike 3 >>= fun mk =>
      encrypt (bls curveF) .release64 5 [2, 3] mk.pubKey 7) = .ok ct := exists_of_isOk (by decide +kernel)
  obtain ⟨ct, e⟩ := e
  obtain ⟨mk, em, e⟩ := Res.bind_eq_ok.1 e
  have hf : ∀ v ∈ ([2, 3] : List UInt32), (if v = 2 then 5 else v).toNat < 8 := by
    intro v hv
    simp only [List.mem_cons, List.not_mem_nil, or_false] at hv
    rcases hv with rfl | rfl <;> decide +kernel
  have hr : ∀ v ∈ ([2, 3] : List UInt32), alike (if v = 2 then 5 else v).toNat = alike v.toNat := by
    intro v hv
    simp only [List.mem_cons, List.not_mem_nil, or_false] at hv
    rcases hv with rfl | rfl <;> decide +kernel
  exact ⟨mk, ct, em, e, C96_repeated_slot curveF em e (fun v => if v = 2 then 5 else v) hf hr⟩

/-- Two users, with keys for `1 & 2` and `3 & 4` made with the same draws, open a ciphertext for 1 and 4 that none of them can open. -/
example : ∃ m₁ m₂ m₃ key₁ key₂ ct, (Node.and (.leaf 1) (.leaf 2)).toMsp = .ok m₁ ∧ (Node.and (.leaf 3) (.leaf 4)).toMsp = .ok m₂ ∧
    keyGeneration (bls curveF) m₁ mkF.privKey drawsF = .ok key₁ ∧ keyGeneration (bls curveF) m₂ mkF.privKey drawsF = .ok key₂ ∧
    encrypt (bls curveF) .release64 5 [1, 4] mkF.pubKey 7 = .ok ct ∧ decrypt (bls curveF) ct key₁ = .ok none ∧ decrypt (bls curveF) ct key₂ = .ok none ∧
    decrypt (bls curveF) ct (spliced key₁ key₂ m₃) = .ok (some 5) := by
  obtain ⟨m₁, h₁⟩ : ∃ m, (Node.and (.leaf 1) (.leaf 2)).toMsp = .ok m := ⟨_, toMsp_and (by decide)⟩
  obtain ⟨m₂, h₂⟩ : ∃ m, (Node.and (.leaf 3) (.leaf 4)).toMsp = .ok m := ⟨_, toMsp_and (by decide)⟩
  have hd : (do
      let m₁ ← (Node.and (.leaf 1) (.leaf 2)).toMsp
      let m₂ ← (Node.and (.leaf 3) (.leaf 4)).toMsp
      let key₁ ← keyGeneration (bls curveF) m₁ mkF.privKey drawsF
      let key₂ ← keyGeneration (bls curveF) m₂ mkF.privKey drawsF
      let ct ← encrypt (bls curveF) .release64 5 [1, 4] mkF.pubKey 7
      let r₁ ← decrypt (bls curveF) ct key₁
      let r₂ ← decrypt (bls curveF) ct key₂
      (.ok (r₁, r₂) : Out _)) = .ok (none, none) := by decide +kernel
  rw [h₁, Res.ok_bind, h₂, Res.ok_bind] at hd
  obtain ⟨key₁, k₁, hd⟩ := Res.bind_eq_ok.1 hd
  obtain ⟨key₂, k₂, hd⟩ := Res.bind_eq_ok.1 hd
  obtain ⟨ct, hct, hd⟩ := Res.bind_eq_ok.1 hd
  obtain ⟨r₁, d₁, hd⟩ := Res.bind_eq_ok.1 hd
  obtain ⟨r₂, d₂, hd⟩ := Res.bind_eq_ok.1 hd
  simp only [Res.ok.injEq, Prod.mk.injEq] at hd
  obtain ⟨rfl, rfl⟩ := hd
  have hmk : generateMasterKey (bls curveF) 8 drawsF 3 = .ok mkF := mkF_eq
  obtain ⟨m₃, _, _, h⟩ := C96_collusion (t := .release64) (s := 7) curveF hmk h₁ h₂ (by decide) k₁ k₂
  exact ⟨m₁, m₂, _, key₁, key₂, ct, h₁, h₂, k₁, k₂, hct, d₁, d₂, h [1, 4] 5 ct (by simp) (by simp) hct⟩

/-- The components of the key for `1 & 4` are among those of the keys for `1 & 2` and `3 & 4`. -/
example {m₁ m₂ m₃ : Msp Int} (h₁ : (Node.and (.leaf 1) (.leaf 2)).toMsp = .ok m₁) (h₂ : (Node.and (.leaf 3) (.leaf 4)).toMsp = .ok m₂)
    (h₃ : (Node.and (.leaf 1) (.leaf 4)).toMsp = .ok m₃) {key₁ key₂ key₃ : DecryptionKey Demo.F Demo.F Demo.F}
    (k₁ : keyGeneration (bls curveF) m₁ mkF.privKey drawsF = .ok key₁) (k₂ : keyGeneration (bls curveF) m₂ mkF.privKey drawsF = .ok key₂)
    (k₃ : keyGeneration (bls curveF) m₃ mkF.privKey drawsF = .ok key₃) :
    ∃ (j : Nat) (D D' : Demo.F), key₃.rawDI[1]? = some D ∧ key₃.dI[1]? = some D' ∧
      (key₁.rawDI[j]? = some D ∧ key₁.dI[j]? = some D' ∨ key₂.rawDI[j]? = some D ∧ key₂.dI[j]? = some D') := by
  obtain ⟨a1, a2, a3⟩ := toMsp_and_inv h₁
  obtain ⟨b1, b2, b3⟩ := toMsp_and_inv h₂
  obtain ⟨c1, c2, c3⟩ := toMsp_and_inv h₃
  refine C96_repeated_key_draws k₁ k₂ k₃ (by rw [a1, c1]) (by rw [b1, c1]) ?_ 1 (by rw [c2]; decide)
  intro i row hi
  rw [c2] at hi
  match i with
  | 0 => exact ⟨m₁, by simp, 0, by rw [a2]; exact hi, by rw [a3, c3]; rfl⟩
  | 1 => exact ⟨m₂, by simp, 1, by rw [b2]; exact hi, by rw [b3, c3]; rfl⟩
  | i + 2 => simp at hi

end Demo

end Abe

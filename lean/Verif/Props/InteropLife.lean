import Verif.Spec.InteropLife
import Verif.Props.Interop
import Verif.Props.HybridHistory

/-!
# Keys and headers exchanged between the interfaces over the life of a policy: C108
-/

namespace Abe

set_option linter.unusedSectionVars false

variable {K P Q QP T Key Nonce : Type} [Field K] [DecidableEq K] [AddCommGroup P] [Module K P] [AddCommGroup Q] [Module K Q]
  [AddCommGroup T] [Module K T]
variable {cs : Codecs K P Q T} {e : External Key Nonce} {tag : Nat} {p p0 q : Policy} {rnd : Nat → K} {y : K}

theorem UserKey.issued {c : Curve K P Q QP T} {mk : MasterKey K P Q T} {ap : AccessPolicy} {key : DecryptionKey K QP Q} (hp : p.Reachable)
    (h : UserKey c p mk ap key) : Issued c mk p ap key := by
  induction h with
  | generate rnd h => exact .generate rnd hp h
  | randomise rnd _ h ih => exact .randomise rnd ih h
  | delegate rnd _ hr hne h ih => exact .delegateLater rnd ih (.nil p) hr hne h

theorem Issued.obtained {c : Curve K P Q QP T} {mk : MasterKey K P Q T} {ap : AccessPolicy} {key : DecryptionKey K QP Q}
    (h : Issued c mk p ap key) : Obtained c key := by
  induction h with
  | generate rnd _ h => exact .generate _ _ _ _ h
  | randomise rnd _ h ih => exact .delegate _ _ _ _ ih h
  | delegateLater rnd _ _ _ _ h ih => exact .delegate _ _ _ _ ih h
  | delegateEarlier rnd _ _ _ _ _ h ih => exact .delegate _ _ _ _ ih h

/-- The bytes encode an issued key, and every target decodes them. -/
theorem issuedBytes_key (c : Curve K P Q QP T) (hcs : cs.Lawful) {size : Nat} (hmax : size < 2 ^ 32 - 1)
    {mk : MasterKey K P Q T} (hmk : generateMasterKey (bls c) size rnd y = .ok mk) {priv : Bytes} {del : Option Bytes}
    (hpriv : ∀ t : Target, 32 ≤ t.bits → (privKeyCodec t cs).dec priv = .ok mk.privKey)
    (hdel : ∀ t : Target, 32 ≤ t.bits → ∀ d, del = some d → (delKeyCodec t cs).dec d = .ok mk.delKey)
    {ap : AccessPolicy} {b : Bytes} (h : IssuedBytes (bls c) cs e priv del p ap b) :
    ∃ key, Issued c mk p ap key ∧ ∀ t : Target, 32 ≤ t.bits → (userKeyCodec t cs (bls c)).dec b = .ok key := by
  have round : ∀ {p : Policy} {ap : AccessPolicy} {key : DecryptionKey K QP Q} {b : Bytes} {t0 : Target}, Issued c mk p ap key →
      (userKeyCodec t0 cs (bls c)).enc key = .ok b → b.length < 2 ^ 32 →
      ∃ key, Issued c mk p ap key ∧ ∀ t : Target, 32 ≤ t.bits → (userKeyCodec t cs (bls c)).dec b = .ok key := by
    intro p ap key b t0 hk he hl
    have hn : key.msp.nbRow ≤ size := by
      obtain ⟨tI, hlen, hnz, rfl⟩ := generateMasterKey_inv c hmk
      obtain ⟨_, F, msp, lam, hok⟩ := issued_ok c hnz hk
      exact hlen ▸ hok.nbRow_le
    exact ⟨key, hk, fun t ht =>
      roundTrips_dec (C25_user_key_round_trip (t := t) hcs c hk.obtained (by omega)) he (fits32 ht hl)⟩
  induction h with
  | made hp h =>
    obtain ⟨key, k1, k2⟩ := userBytes_key c hcs (reachable_wf hp) hmax hmk hpriv hdel h
    exact ⟨key, k1.issued hp, k2⟩
  | @randomise lib p q ap str polB delB b b' rnd' hb hk hd hp ha h hl ih =>
    obtain ⟨key, k1, k2⟩ := ih
    unfold pyGenerateDelegatedKey at h
    rw [hb.cs_eq, hdel _ hb.bits _ hd, py_ok, Res.ok_bind, hb.bm_eq, k2 _ hb.bits, py_ok, Res.ok_bind, ha, pyArg_some, Res.ok_bind, hp,
      pyArg_some, Res.ok_bind] at h
    obtain ⟨key', h1, h2⟩ := Res.bind_eq_ok.1 h
    rw [py_eq_ok] at h1 h2
    exact round (.randomise rnd' k1 h1) h2 hl
  | @delegateLater lib p q l ap ap' str polB delB b b' rnd' hb hk hd hev hr hne hp ha h hl ih =>
    obtain ⟨key, k1, k2⟩ := ih
    unfold pyGenerateDelegatedKey at h
    rw [hb.cs_eq, hdel _ hb.bits _ hd, py_ok, Res.ok_bind, hb.bm_eq, k2 _ hb.bits, py_ok, Res.ok_bind, ha, pyArg_some, Res.ok_bind, hp,
      pyArg_some, Res.ok_bind] at h
    obtain ⟨key', h1, h2⟩ := Res.bind_eq_ok.1 h
    rw [py_eq_ok] at h1 h2
    exact round (.delegateLater rnd' k1 hev hr hne h1) h2 hl
  | @delegateEarlier lib p q l ap ap' str polB delB b b' rnd' hb hk hd hq hev hr hne hp ha h hl ih =>
    obtain ⟨key, k1, k2⟩ := ih
    unfold pyGenerateDelegatedKey at h
    rw [hb.cs_eq, hdel _ hb.bits _ hd, py_ok, Res.ok_bind, hb.bm_eq, k2 _ hb.bits, py_ok, Res.ok_bind, ha, pyArg_some, Res.ok_bind, hp,
      pyArg_some, Res.ok_bind] at h
    obtain ⟨key', h1, h2⟩ := Res.bind_eq_ok.1 h
    rw [py_eq_ok] at h1 h2
    exact round (.delegateEarlier rnd' k1 hq hev hr hne h1) h2 hl

/-- **C108**, headers made later: master keys, a user key (generated, randomised or delegated at any moments) and a header, made by any of the interfaces, each by a
build for any pointer width.  If the attributes of the header that were not rotated since the policy of the key satisfy its access policy, every interface of every
build opens the header with the key, to the same symmetric key and metadata; otherwise none does. -/
theorem C108_later (c : Curve K P Q QP T) (hcs : cs.Lawful) (he : e.Lawful tag) (h0 : p0.maxAttributeCreations ≠ 0)
    (hmax : p0.maxAttributeCreations.toNat < 2 ^ 32 - 1) {priv pub ub kb hb : Bytes} {del : Option Bytes} {ap : AccessPolicy}
    {atts : List Attribute} {m : Metadata} {l : List Change} (hm : MasterBytes (bls c) cs e p0 rnd y priv pub del)
    (hu : IssuedBytes (bls c) cs e priv del p ap ub) (hev : p.Evolves l q) (hh : HeaderBytes (bls c) cs e q pub atts m kb hb) (hkeep : e.Keeps m) :
    (ap.Sat p (fun b => b ∈ atts ∧ ¬ Rotated l b) → OpensEverywhere (bls c) cs e ub hb kb m) ∧
    (¬ ap.Sat p (fun b => b ∈ atts ∧ ¬ Rotated l b) → OpensNowhere (bls c) cs e ub hb) := by
  obtain ⟨mk, hmk, hd⟩ := masterBytes_mk c hcs h0 hmax hm
  obtain ⟨key, hk, hkd⟩ := issuedBytes_key c hcs hmax hmk (fun t ht => (hd t ht).1) (fun t ht => (hd t ht).2.2) hu
  obtain ⟨t0, random, s, n, h, h1, rfl, rfl⟩ := headerBytes_enc c he (fun t ht => (hd t ht).2.1) hh
  have hK : ∀ m' ∈ some m, e.Keeps m' := by intro m hm; cases hm; exact hkeep
  exact ⟨fun hsat => opensEverywhere_of c he hkd hkeep fun t ht =>
      (C100_later_header (t' := t) c ht hcs he (by omega) hmk hk hev hK h1).1 hsat,
    fun hsat => opensNowhere_of c hkd fun t ht => ((C100_later_header (t' := t) c ht hcs he (by omega) hmk hk hev hK h1).2 hsat).1⟩

/-- **C108**, headers made earlier: the same for a header made before the policy of the key, of which the attributes count whether rotated or not. -/
theorem C108_earlier (c : Curve K P Q QP T) (hcs : cs.Lawful) (he : e.Lawful tag) (h0 : p0.maxAttributeCreations ≠ 0)
    (hmax : p0.maxAttributeCreations.toNat < 2 ^ 32 - 1) {priv pub ub kb hb : Bytes} {del : Option Bytes} {ap : AccessPolicy}
    {atts : List Attribute} {m : Metadata} {l : List Change} (hm : MasterBytes (bls c) cs e p0 rnd y priv pub del)
    (hu : IssuedBytes (bls c) cs e priv del p ap ub) (hq : q.Reachable) (hev : q.Evolves l p) (hh : HeaderBytes (bls c) cs e q pub atts m kb hb)
    (hkeep : e.Keeps m) :
    (ap.Sat p (· ∈ atts) → OpensEverywhere (bls c) cs e ub hb kb m) ∧
    (¬ ap.Sat p (· ∈ atts) → OpensNowhere (bls c) cs e ub hb) := by
  obtain ⟨mk, hmk, hd⟩ := masterBytes_mk c hcs h0 hmax hm
  obtain ⟨key, hk, hkd⟩ := issuedBytes_key c hcs hmax hmk (fun t ht => (hd t ht).1) (fun t ht => (hd t ht).2.2) hu
  obtain ⟨t0, random, s, n, h, h1, rfl, rfl⟩ := headerBytes_enc c he (fun t ht => (hd t ht).2.1) hh
  have hK : ∀ m' ∈ some m, e.Keeps m' := by intro m hm; cases hm; exact hkeep
  exact ⟨fun hsat => opensEverywhere_of c he hkd hkeep fun t ht =>
      (C100_earlier_header (t' := t) c ht hcs he (by omega) hmk hk hq hev hK h1).1 hsat,
    fun hsat => opensNowhere_of c hkd fun t ht => ((C100_earlier_header (t' := t) c ht hcs he (by omega) hmk hk hq hev hK h1).2 hsat).1⟩

/-! ### Rotations by calls -/

theorem Policy.Rotations.evolves {l : List Attribute} {ch : List Change} {r : Policy} (h : Policy.Rotations p l q) (hr : q.Evolves ch r) :
    p.Evolves (l.map .rotate ++ ch) r := by
  induction h with
  | nil => exact hr
  | cons h _ ih => exact .cons h (ih hr)

/-- One call of rotation. -/
theorem rotation_step {serde : Serde} (hs : serde.KeepsPolicies) {atts : List Attribute} {p' : Policy} {b : Bytes} {ch : List Change} {r : Policy}
    (hp : p.Reachable) (hsp : p.Spelled) (h : Policy.Rotations p atts p') (henc : serde.policyEnc p' = some b) (hdec : serde.policyDec b = some q)
    (ih : q.Reachable → q.Spelled → q.Evolves ch r) : p.Evolves (atts.map .rotate ++ ch) r := by
  have hp' := rotations_reachable h hp
  have hs' := rotations_spelled h (reachable_wf hp) hsp
  obtain ⟨q', h1, h2⟩ := hs p' b hp' hs' henc
  obtain rfl : q' = q := by rw [hdec] at h1; simpa using h1.symm
  have hq : q'.Reachable := .reorder hp' h2
  refine h.evolves (.reorder h2 (ih hq ?_))
  rw [spelled_keys (reachable_wf hq)]
  rw [spelled_keys (reachable_wf hp')] at hs'
  exact fun x hx => hs' x (h2.values.subset hx)

/-- Rotations by calls of the interfaces are changes of the policy. -/
theorem rotationCalls_evolves {lib : FfiLib K QP P Q T Key Nonce} (ht : 31 ≤ lib.t.bits) (hs : lib.serde.KeepsPolicies) {l : List Attribute}
    (h : RotationCalls lib p l q) : p.Reachable → p.Spelled → p.Evolves (l.map .rotate) q := by
  induction h with
  | nil p => exact fun _ _ => .nil p
  | @python p q r polB attB b atts l hpol hatt h hq _ ih =>
    intro hp hsp
    rw [List.map_append]
    unfold pyRotateAttributes at h
    rw [hatt, hpol, pyArg_some, pyArg_some, Res.ok_bind, Res.ok_bind] at h
    obtain ⟨p', h1, h⟩ := Res.bind_eq_ok.1 h
    exact rotation_step hs hp hsp ((rotateAll.1 p').1 h1) (pyArg_eq_ok.1 h) hq ih
  | @c p q r policy attributes b atts l s hpol hatt h hq _ ih =>
    intro hp hsp
    rw [List.map_append]
    rcases C47_rotation (lib := lib) ht attributes policy with ⟨b', ⟨p1, a1, p', h1, h2, h3, h4⟩, hd⟩ | ⟨_, hn⟩
    · obtain rfl := h1.unique hpol
      obtain rfl := h2.unique hatt
      obtain rfl := (hd.gives h).1
      exact rotation_step hs hp hsp h3 h4 hq ih
    · exact (hn.gives h).elim
  | @js p q r polB attB b atts l hpol hatt h hq _ ih =>
    intro hp hsp
    rw [List.map_append]
    unfold jsRotateAttributes at h
    rw [hatt, hpol, jsArg_some, jsArg_some, Res.ok_bind, Res.ok_bind] at h
    obtain ⟨p', h1, h⟩ := Res.bind_eq_ok.1 h
    split at h
    · simp at h
    · rename_i b' hb'
      simp only [Res.ok.injEq] at h
      subst h
      exact rotation_step hs hp hsp ((jsRotateAll.1 p').1 h1) hb' hq ih

/-- **C108**, with rotations made by calls of the interfaces: a key whose policy is the one before the calls opens a header made after them, through every interface,
exactly if the attributes of the header that no call rotated satisfy its access policy; a key whose policy is the one after the calls opens a header made before them
exactly if the attributes of the header satisfy its access policy. -/
theorem C108_rotation_calls (c : Curve K P Q QP T) (hcs : cs.Lawful) (he : e.Lawful tag) (h0 : p0.maxAttributeCreations ≠ 0)
    (hmax : p0.maxAttributeCreations.toNat < 2 ^ 32 - 1) {priv pub : Bytes} {del : Option Bytes} {l : List Attribute}
    {lib : FfiLib K QP P Q T Key Nonce} (hl : lib.Builds (bls c) cs e) (hs : lib.serde.KeepsPolicies) (hm : MasterBytes (bls c) cs e p0 rnd y priv pub del)
    (hp : p.Reachable) (hsp : p.Spelled) (hr : RotationCalls lib p l q) {ub kb hb : Bytes} {ap : AccessPolicy} {atts : List Attribute} {m : Metadata}
    (hkeep : e.Keeps m) :
    (IssuedBytes (bls c) cs e priv del p ap ub → HeaderBytes (bls c) cs e q pub atts m kb hb →
      (ap.Sat p (fun b => b ∈ atts ∧ b ∉ l) → OpensEverywhere (bls c) cs e ub hb kb m) ∧
      (¬ ap.Sat p (fun b => b ∈ atts ∧ b ∉ l) → OpensNowhere (bls c) cs e ub hb)) ∧
    (IssuedBytes (bls c) cs e priv del q ap ub → HeaderBytes (bls c) cs e p pub atts m kb hb →
      (ap.Sat q (· ∈ atts) → OpensEverywhere (bls c) cs e ub hb kb m) ∧
      (¬ ap.Sat q (· ∈ atts) → OpensNowhere (bls c) cs e ub hb)) := by
  have hev := rotationCalls_evolves (by have := hl.bits; omega) hs hr hp hsp
  refine ⟨fun hu hh => ?_, fun hu hh => C108_earlier c hcs he h0 hmax hm hu hp hev hh hkeep⟩
  have hc : ap.Sat p (fun b => b ∈ atts ∧ b ∉ l) ↔ ap.Sat p (fun b => b ∈ atts ∧ ¬ Rotated (l.map .rotate) b) :=
    AccessPolicy.sat_congr (fun b _ => by simp [Rotated]) ap
  rw [hc]
  exact C108_later c hcs he h0 hmax hm hu hev hh hkeep

/-! ### Concrete cases -/

namespace Demo

/-- Master keys from Python on 64 bits; user keys from JavaScript on 32 bits, before and after the rotation of `HR`, and one delegated from Python after it;
headers for `[low, hr]` from JavaScript before the rotation, and from Python after it. -/
def lifeFlow : Res Unit ((Bytes × Bytes × Bytes) × Bytes × Bytes × Bytes × Bytes × (Bytes × Bytes)) := do
  let mk ← (pyGenerateMasterKeys ffi.toLib [1] drawsF 3).mapErr fun _ => ()
  let kb ← (jsGenerateUserPrivateKey ffi32.toLib mk.1 "ap" [1] drawsF).mapErr fun _ => ()
  let kb1 ← (jsGenerateUserPrivateKey ffi32.toLib mk.1 "ap" [2] drawsF).mapErr fun _ => ()
  let kb2 ← (pyGenerateDelegatedKey ffi.toLib mk.2.2 kb "*" [2] drawsF).mapErr fun _ => ()
  let hb ← (jsEncryptHybridHeader ffi32.toLib [1] mk.2.1 "low,hr" [1, 2, 3] 5 7 nonce).mapErr fun _ => ()
  let hb' ← (pyEncryptHybridHeader ffi.toLib [1] [2] [1] mk.2.1 5 7 nonce).mapErr fun _ => ()
  .ok (mk, kb, kb1, kb2, hb, hb')

theorem lifeFlow_ok : ∃ priv pub del ub ub1 ub2 kb hb kb' hb', MasterBytes (bls curveF) codecs symmetric policy drawsF 3 priv pub (some del) ∧
    IssuedBytes (bls curveF) codecs symmetric priv (some del) policy ap ub ∧
    IssuedBytes (bls curveF) codecs symmetric priv (some del) rotated ap ub1 ∧
    IssuedBytes (bls curveF) codecs symmetric priv (some del) policy ap ub2 ∧
    HeaderBytes (bls curveF) codecs symmetric policy pub [low, hr] ⟨[1, 2, 3], none⟩ kb hb ∧
    HeaderBytes (bls curveF) codecs symmetric rotated pub [low, hr] metadata kb' hb' := by
  have hok : (match lifeFlow with
    | .ok r => decide (max (max r.1.1.length r.1.2.1.length) r.1.2.2.length < 1000 ∧ r.2.1.length < 1000 ∧ r.2.2.1.length < 1000 ∧ r.2.2.2.1.length < 1000)
    | _ => false) = true := by decide +kernel
  cases hr : lifeFlow with
  | ok r =>
    rw [hr] at hok
    simp only [decide_eq_true_eq] at hok
    unfold lifeFlow at hr
    obtain ⟨⟨priv, pub, del⟩, h1, hr⟩ := Res.bind_eq_ok.1 hr
    obtain ⟨ub, h2, hr⟩ := Res.bind_eq_ok.1 hr
    obtain ⟨ub1, h3, hr⟩ := Res.bind_eq_ok.1 hr
    obtain ⟨ub2, h4, hr⟩ := Res.bind_eq_ok.1 hr
    obtain ⟨b, h5, hr⟩ := Res.bind_eq_ok.1 hr
    obtain ⟨⟨kb', hb'⟩, h6, hr⟩ := Res.bind_eq_ok.1 hr
    simp only [Res.ok.injEq] at hr
    subst hr
    obtain ⟨l0, l1, l2, l3⟩ := hok
    have g2 : IssuedBytes (bls curveF) codecs symmetric priv (some del) policy ap ub :=
      .made policy_reachable (.js (lib := ffi32) drawsF ffi32_builds rfl rfl (mapErr_eq_ok h2) (lt_trans l1 (by decide)))
    exact ⟨priv, pub, del, ub, ub1, ub2, _, _, kb', hb', .python ffi_builds rfl (mapErr_eq_ok h1) (lt_trans l0 (by decide)), g2,
      .made rotated_reachable' (.js (lib := ffi32) drawsF ffi32_builds rfl rfl (mapErr_eq_ok h3) (lt_trans l2 (by decide))),
      .randomise (lib := ffi) (q := rotated) drawsF ffi_builds g2 rfl rfl rfl (mapErr_eq_ok h4) (lt_trans l3 (by decide)),
      .js (lib := ffi32) 5 7 nonce ffi32_builds rfl rfl (mapErr_eq_ok h5),
      .python (lib := ffi) 5 7 nonce ffi_builds rfl rfl rfl (mapErr_eq_ok h6)⟩
  | err z => rw [hr] at hok; simp at hok
  | panic => rw [hr] at hok; simp at hok

/-- `HR` rotated by a call from JavaScript. -/
theorem rotationCall : RotationCalls ffi policy [hr] rotated :=
  .js (polB := [1]) (attB := [3]) (b := [2]) (atts := [hr]) (l := []) rfl rfl (by decide +kernel) rfl (.nil _)

/-- `HR` rotated by a call from C. -/
example : RotationCalls ffi policy [hr] rotated :=
  .c (policy := some [1, 0]) (attributes := some [3, 0]) (b := given (hRotateAttributes ffi (some [3, 0]) (some [1, 0])) .out) (atts := [hr]) (l := [])
    policy_arg hr_arg (given_gives (by decide +kernel)) (by decide +kernel) (.nil _)

/-- The key made before the rotation opens the header for `[low, hr]` made before it, and not the one made after it, even when randomised in between; the key made
after the rotation opens both. -/
example : ∃ ub ub1 ub2 kb hb kb' hb', OpensEverywhere (bls curveF) codecs symmetric ub hb kb ⟨[1, 2, 3], none⟩ ∧
    OpensNowhere (bls curveF) codecs symmetric ub hb' ∧ OpensNowhere (bls curveF) codecs symmetric ub2 hb' ∧
    OpensEverywhere (bls curveF) codecs symmetric ub1 hb kb ⟨[1, 2, 3], none⟩ ∧ OpensEverywhere (bls curveF) codecs symmetric ub1 hb' kb' metadata := by
  obtain ⟨priv, pub, del, ub, ub1, ub2, kb, hb, kb', hb', h1, h2, h3, h4, h5, h6⟩ := lifeFlow_ok
  refine ⟨ub, ub1, ub2, kb, hb, kb', hb', ?_, ?_, ?_, ?_, ?_⟩
  · exact (C108_earlier curveF codecs_lawful symmetric_lawful (by decide) (by decide) h1 h2 policy_reachable (.nil _) h5 js_metadata_kept).1 (by decide +kernel)
  · exact (C108_later curveF codecs_lawful symmetric_lawful (by decide) (by decide) h1 h2 rotation h6 metadata_kept).2 (by rw [sat_after_rotation]; decide +kernel)
  · refine ((C108_rotation_calls curveF codecs_lawful symmetric_lawful (by decide) (by decide) ffi_builds serde_keeps h1 policy_reachable policy_spelled
      rotationCall metadata_kept).1 h4 h6).2 fun hs => ?_
    have hs' := (AccessPolicy.sat_congr (S' := (· ∈ [low, hr].filter (· ≠ hr))) (fun b _ => by simp) ap).1 hs
    revert hs'
    decide +kernel
  · exact ((C108_rotation_calls curveF codecs_lawful symmetric_lawful (by decide) (by decide) ffi_builds serde_keeps h1 policy_reachable policy_spelled
      rotationCall js_metadata_kept).2 h3 h5).1 (by decide +kernel)
  · exact (C108_later curveF codecs_lawful symmetric_lawful (by decide) (by decide) h1 h3 (.nil _) h6 metadata_kept).1 (by rw [sat_unchanged]; decide +kernel)

end Demo

end Abe

import Verif.Spec.Show
import Verif.Props.Text
import Verif.Props.Tracing

set_option linter.unusedSectionVars false

/-!
# Printing and comparing keys

Properties C88 and C89.
-/

namespace Abe

variable {K P Q QP T : Type} [Field K] [DecidableEq K] [AddCommGroup P] [Module K P] [AddCommGroup Q] [Module K Q]
  [AddCommGroup T] [Module K T]

/-! ### Hexadecimal -/

theorem hexEncode_length (b : Bytes) : (hexEncode b).length = 2 * b.length := by
  induction b with
  | nil => rfl
  | cons x b ih => simp only [hexEncode, List.flatMap_cons, List.length_append, List.length_cons, List.length_nil] at ih ⊢; omega

theorem hexValue_digit : ∀ n < 16, hexValue (hexDigits.getD n '0') = some n := by decide +kernel

theorem readHex_encode (b : Bytes) : readHex (hexEncode b) = some b := by
  induction b with
  | nil => rfl
  | cons x b ih =>
    have hx := x.toNat_lt
    simp only [hexEncode, List.flatMap_cons, List.cons_append, List.nil_append, readHex] at ih ⊢
    rw [hexValue_digit _ (by omega), hexValue_digit _ (by omega), ih]
    simp only [Option.bind_eq_bind, Option.bind_some, Option.some.injEq, List.cons.injEq, and_true]
    rw [Nat.div_add_mod]
    simp

/-- What is printed of an object with an encoding. -/
theorem display_of_enc {α : Type} {c : Codec α} {k : α} {b : Bytes} (h : c.enc k = .ok b) : keyDisplay c k = .ok (hexEncode b) := by
  simp only [keyDisplay, h]

theorem revealed {α : Type} {c : Codec α} {key : α} {B n : Nat} (h : c.RoundTrips B key) {b : Bytes} (hb : c.enc key = .ok b) (hl : b.length = n)
    (hB : n < B) : Revealed c key (2 * n) := by
  obtain ⟨b', h1, _, h3⟩ := h
  obtain rfl : b = b' := by rw [hb] at h1; exact Res.ok.inj h1
  exact ⟨_, b, display_of_enc hb, by rw [hexEncode_length, hl], readHex_encode b, by simpa using h3 [] (by simpa [hl] using hB)⟩

variable {cs : Codecs K P Q T} {t : Target}

/-- **C88.** Printing a master key discloses it: the private key can be read back from its text.  (The keys are assumed to fit into the memory of the target.) -/
theorem C88_master_keys (h : cs.Lawful) (c : Curve K P Q QP T) {p : Policy} {rnd : Nat → K} {y : K} {mk : MasterKey K P Q T}
    (hmk : engineGenerateMasterKey (bls c) p rnd y = .ok mk) (h0 : p.maxAttributeCreations ≠ 0) (h1 : p.maxAttributeCreations.toNat < 2 ^ 32 - 1)
    (hB : 292 + 96 * p.maxAttributeCreations.toNat < t.modulus) :
    Revealed (privKeyCodec t cs) mk.privKey (2 * (36 + 32 * p.maxAttributeCreations.toNat)) ∧
    Revealed (pubKeyCodec t cs) mk.pubKey (2 * (292 + 48 * p.maxAttributeCreations.toNat)) ∧
    Revealed (delKeyCodec t cs) mk.delKey (2 * (4 + 96 * p.maxAttributeCreations.toNat)) := by
  obtain ⟨r1, r2, r3⟩ := C24_generated_keys_round_trip (t := t) h c hmk h0 h1
  obtain ⟨b1, b2, b3, e1, e2, e3, l1, l2, l3⟩ := C86_master_key_sizes (t := t) h c hmk h0
  exact ⟨revealed r1 e1 l1 (by omega), revealed r2 e2 l2 (by omega), revealed r3 e3 l3 (by omega)⟩

theorem issued_obtained {c : Curve K P Q QP T} {mk : MasterKey K P Q T} {p : Policy} {ap : AccessPolicy} {key : DecryptionKey K QP Q} (h : Issued c mk p ap key) :
    Obtained c key := by
  induction h with
  | generate rnd _ h => exact .generate _ _ _ _ h
  | randomise rnd _ h ih => exact .delegate _ _ _ _ ih h
  | delegateLater rnd _ _ _ _ h ih => exact .delegate _ _ _ _ ih h
  | delegateEarlier rnd _ _ _ _ _ h ih => exact .delegate _ _ _ _ ih h

/-- **C88.** So does printing a user key. -/
theorem C88_user_keys (h : cs.Lawful) (c : Curve K P Q QP T) {size : Nat} {rnd : Nat → K} {y : K} {mk : MasterKey K P Q T}
    (hmk : generateMasterKey (bls c) size rnd y = .ok mk) {p : Policy} {ap : AccessPolicy} {key : DecryptionKey K QP Q} (hk : Issued c mk p ap key)
    {S : Finset UInt32} (hS : ∀ v, v ∈ S ↔ ∃ b, ap.Grants p b ∧ p.HasValue b v) (h1 : S.card < 2 ^ 32 - 1) (hB : userKeySize S.card ap.ands < t.modulus) :
    Revealed (userKeyCodec t cs (bls c)) key (2 * userKeySize S.card ap.ands) := by
  obtain ⟨b, e, l⟩ := C86_user_key_size (t := t) h c hmk hk hS
  refine revealed (C25_user_key_round_trip (t := t) h c (issued_obtained hk) ?_) e l hB
  obtain ⟨tI, _, hnz, rfl⟩ := generateMasterKey_inv c hmk
  obtain ⟨_, F, msp, lam, hk⟩ := issued_ok c hnz hk
  rw [hk.key_eq]
  change msp.nbRow < _
  rw [hk.mspFor.nbRow, ← hk.mspFor.rta, ← List.toFinset_card_of_nodup hk.mspFor.nodup]
  refine lt_of_le_of_lt (Finset.card_le_card fun v hv => ?_) h1
  rwa [List.mem_toFinset, hk.mspFor.perm.mem_iff, hk.form.leaves, ← hS] at hv

/-! ### Equality -/

theorem hashEq_refl {κ α : Type} [DecidableEq κ] [DecidableEq α] {m : List (κ × α)} (h : (m.map Prod.fst).Nodup) : hashEq m m = true := by
  simp only [hashEq, beq_self_eq_true, Bool.true_and, List.all_eq_true, beq_iff_eq]
  exact fun p hp => (hget_eq_some h).2 hp

/-- What holds of every key that can be held. -/
structure KeyInv (c : Curve K P Q QP T) (key : DecryptionKey K QP Q) : Prop where
  prepared : key.dI = key.rawDI.map (bls c).g3ToG1
  index : key.msp.attrToRow = key.msp.rowToAttr.zipIdx.reverse
  nodup : key.msp.rowToAttr.Nodup

theorem mspLabels_index {bytes : Bytes} {k : Nat} {v : List UInt32} {m : List (UInt32 × Nat)} : ∀ {vec : List UInt32}, vec.Nodup →
    mspLabels t bytes (List.range' vec.length k) vec vec.zipIdx.reverse = .ok (v, m) → m = v.zipIdx.reverse ∧ v.Nodup := by
  induction k with
  | zero =>
    intro vec hn h
    simp only [List.range'_zero, mspLabels, Res.ok.injEq, Prod.mk.injEq] at h
    exact ⟨by rw [← h.1, ← h.2], h.1 ▸ hn⟩
  | succ k ih =>
    intro vec hn h
    rw [List.range'_succ, mspLabels] at h
    obtain ⟨i4, _, h⟩ := Res.bind_eq_ok.1 h
    obtain ⟨a, _, h⟩ := Res.bind_eq_ok.1 h
    obtain ⟨b, _, h⟩ := Res.bind_eq_ok.1 h
    obtain ⟨s, _, h⟩ := Res.bind_eq_ok.1 h
    dsimp only at h
    split at h
    · simp at h
    · rename_i hnone
      have hu := hget_labels.1 hnone
      have hn' : (vec ++ [ofBe32 s]).Nodup := by
        rw [List.nodup_append]
        exact ⟨hn, by simp, by intro x hx y hy; simp at hy; subst hy; rintro rfl; exact hu hx⟩
      have hz : hinsert vec.zipIdx.reverse (ofBe32 s) vec.length = (vec ++ [ofBe32 s]).zipIdx.reverse := hinsert_labels hu
      rw [hz] at h
      have := ih hn'
      rw [List.length_append, List.length_singleton] at this
      exact this h

theorem held_inv {c : Curve K P Q QP T} {key : DecryptionKey K QP Q} (h : Held c t cs key) : KeyInv c key := by
  induction h with
  | generate p priv ap rnd h =>
    have := obtained_shape c (.generate p priv ap rnd h)
    exact ⟨this.prepared, this.regular.index, this.regular.nodup⟩
  | delegate p del ap rnd _ h ih =>
    unfold engineDelegateUserKey at h
    obtain ⟨msp, hm, h⟩ := Res.bind_eq_ok.1 h
    cases msp with
    | none =>
      simp only [abeKeyDelegation, keyRandomization] at h
      obtain ⟨u, _, h⟩ := Res.bind_eq_ok.1 h
      obtain ⟨ds, hds, h⟩ := Res.bind_eq_ok.1 h
      simp only [Res.ok.injEq] at h
      subst h
      exact ⟨mapRes_prepared c hds fun _ _ hd => delegateRow_prepared c hd, ih.index, ih.nodup⟩
    | some m =>
      have hm' : policyToMsp p ap = .ok m := by
        cases ap <;> simp_all [Res.bind_eq_ok]
      obtain ⟨n, hn⟩ := policyToMsp_toMsp hm'
      obtain ⟨hreg, _, _⟩ := toMsp_regular hn (bls c).fromI32
      simp only [abeKeyDelegation, keyDelegation] at h
      obtain ⟨u, _, h⟩ := Res.bind_eq_ok.1 h
      obtain ⟨ds, hds, h⟩ := Res.bind_eq_ok.1 h
      simp only [Res.ok.injEq] at h
      subst h
      exact ⟨mapRes_prepared c hds fun _ _ hd => delegateRow_prepared c hd, hreg.index, hreg.nodup⟩
  | read b h =>
    simp only [userKeyCodec] at h
    split at h
    · simp at h
    · obtain ⟨raw, _, h⟩ := Res.bind_eq_ok.1 h
      obtain ⟨rest, _, h⟩ := Res.bind_eq_ok.1 h
      obtain ⟨msp, hm, h⟩ := Res.bind_eq_ok.1 h
      simp only [Res.ok.injEq] at h
      subst h
      suffices msp.attrToRow = msp.rowToAttr.zipIdx.reverse ∧ msp.rowToAttr.Nodup from ⟨rfl, this.1, this.2⟩
      unfold mspDec at hm
      obtain ⟨⟨nr, nc, vec, map⟩, hh, hm⟩ := Res.bind_eq_ok.1 hm
      have hlab : map = vec.zipIdx.reverse ∧ vec.Nodup := by
        unfold mspHeader at hh
        split at hh
        · simp at hh
        · obtain ⟨b0, _, hh⟩ := Res.bind_eq_ok.1 hh
          obtain ⟨b1, _, hh⟩ := Res.bind_eq_ok.1 hh
          obtain ⟨r4, _, hh⟩ := Res.bind_eq_ok.1 hh
          obtain ⟨need, _, hh⟩ := Res.bind_eq_ok.1 hh
          split at hh
          · simp at hh
          · obtain ⟨⟨v, m⟩, hl, hh⟩ := Res.bind_eq_ok.1 hh
            simp only [Res.ok.injEq, Prod.mk.injEq] at hh
            obtain ⟨_, _, rfl, rfl⟩ := hh
            rw [List.range_eq_range'] at hl
            exact mspLabels_index (vec := []) (by simp) hl
      dsimp only at hm
      obtain ⟨_, _, hm⟩ := Res.bind_eq_ok.1 hm
      obtain ⟨_, _, hm⟩ := Res.bind_eq_ok.1 hm
      obtain ⟨_, _, hm⟩ := Res.bind_eq_ok.1 hm
      obtain ⟨_, _, hm⟩ := Res.bind_eq_ok.1 hm
      obtain ⟨_, _, hm⟩ := Res.bind_eq_ok.1 hm
      obtain ⟨_, _, hm⟩ := Res.bind_eq_ok.1 hm
      split at hm
      · simp at hm
      · obtain ⟨_, _, hm⟩ := Res.bind_eq_ok.1 hm
        obtain ⟨_, _, hm⟩ := Res.bind_eq_ok.1 hm
        simp only [Res.ok.injEq] at hm
        subst hm
        exact hlab

/-- **C89.** Keys compare equal exactly if they are the same, although the prepared elements are not compared: equal keys behave alike in every operation. -/
theorem C89_equality [DecidableEq Q] (c : Curve K P Q QP T) {key key' : DecryptionKey K QP Q} (h : Held c t cs key) (h' : Held c t cs key') :
    keyEq key key' = true ↔ key = key' := by
  have i := held_inv h
  have i' := held_inv h'
  constructor
  · intro he
    simp only [keyEq, Msp.eq, Bool.and_eq_true, beq_iff_eq] at he
    obtain ⟨h1, ⟨⟨⟨h2, h3⟩, h4⟩, _⟩, h5⟩ := he
    have hm : key.msp = key'.msp := by
      have h6 : key.msp.attrToRow = key'.msp.attrToRow := by rw [i.index, i'.index, h5]
      cases hk : key.msp
      cases hk' : key'.msp
      simp_all
    have hd : key.dI = key'.dI := by rw [i.prepared, i'.prepared, h1]
    cases key
    cases key'
    simp_all
  · rintro rfl
    simp only [keyEq, Msp.eq, Bool.and_eq_true, beq_self_eq_true, true_and, and_true]
    apply hashEq_refl
    rw [i.index, List.map_reverse, List.nodup_reverse, List.zipIdx_map_fst]
    exact i.nodup

/-- Two maps without double entries compare equal exactly if every lookup agrees. -/
theorem hashEq_iff {κ α : Type} [DecidableEq κ] [DecidableEq α] {m m' : List (κ × α)} (h : (m.map Prod.fst).Nodup) (h' : (m'.map Prod.fst).Nodup) :
    hashEq m m' = true ↔ ∀ k, hget m k = hget m' k := by
  simp only [hashEq, Bool.and_eq_true, beq_iff_eq, List.all_eq_true]
  constructor
  · rintro ⟨hl, hs⟩ k
    have hsub : m ⊆ m' := fun p hp => (hget_eq_some h').1 (hs p hp)
    have hp : m.Perm m' := ((List.Nodup.of_map _ h).subperm hsub).perm_of_length_le (le_of_eq hl.symm)
    apply Option.ext
    intro a
    rw [hget_eq_some h, hget_eq_some h', hp.mem_iff]
  · intro he
    have hmem : ∀ p, p ∈ m ↔ p ∈ m' := fun p => by rw [← hget_eq_some h (k := p.1), ← hget_eq_some h' (k := p.1), he]
    have hp : m.Perm m' := (List.perm_ext_iff_of_nodup (List.Nodup.of_map _ h) (List.Nodup.of_map _ h')).2 hmem
    exact ⟨hp.length_eq, fun p hm => (hget_eq_some h').2 ((hmem p).1 hm)⟩

/-- **C89.** Two span programs compare equal exactly if they have the same sizes, entries and labels and every lookup of a label in one gives what it gives in
the other, whatever the order in which the lookup tables were filled. -/
theorem C89_span_programs {I : Type} [DecidableEq I] {m m' : Msp I} (h : (m.attrToRow.map Prod.fst).Nodup) (h' : (m'.attrToRow.map Prod.fst).Nodup) :
    m.eq m' = true ↔ m.nbRow = m'.nbRow ∧ m.nbCol = m'.nbCol ∧ m.matrix = m'.matrix ∧ m.rowToAttr = m'.rowToAttr ∧
      ∀ k, hget m.attrToRow k = hget m'.attrToRow k := by
  simp only [Msp.eq, Bool.and_eq_true, beq_iff_eq, hashEq_iff h h']
  tauto

/-- Tables filled in different orders are equal; a table with one entry less is not equal, from neither side. -/
example : let m : Msp Int := ⟨2, 1, [[1], [1]], [(7, 0), (9, 1)], [7, 9]⟩
    let m' : Msp Int := { m with attrToRow := [(9, 1), (7, 0)] }
    let m'' : Msp Int := { m with attrToRow := [(7, 0)] }
    m.eq m' = true ∧ m.eq m'' = false ∧ m''.eq m = false := by decide +kernel

/-! ### Matrices -/

/-- Two texts that agree up to a first separator. -/
theorem split_at {p : Char → Bool} {l l' r r' : List Char} {d d' : Char} (hl : ∀ c ∈ l, p c = true) (hl' : ∀ c ∈ l', p c = true) (hd : p d = false)
    (hd' : p d' = false) (h : l ++ d :: r = l' ++ d' :: r') : l = l' ∧ d = d' ∧ r = r' := by
  have span : ∀ {l r : List Char} {d : Char}, (∀ c ∈ l, p c = true) → p d = false → (l ++ d :: r).takeWhile p = l := by
    intro l r d hl hd
    rw [List.takeWhile_append_of_pos hl]
    simp [hd]
  have h1 := congrArg (List.takeWhile p) h
  rw [span hl hd, span hl' hd'] at h1
  subst h1
  simpa using h

theorem debugItems_prefix {I : Type} {dbg : I → List Char} (hp : Printable dbg) : ∀ (row row' : List I) (r r' : List Char),
    debugItems dbg row ++ ']' :: r = debugItems dbg row' ++ ']' :: r' → row = row' ∧ r = r' := by
  let p : Char → Bool := fun c => decide (c ≠ ',' ∧ c ≠ ']')
  have hpl : ∀ x, ∀ c ∈ dbg x, p c = true := fun x c hc => decide_eq_true (hp.plain x c hc)
  have head : ∀ (x : I) (xs : List I) (r : List Char), ∃ d r1, debugItems dbg (x :: xs) ++ ']' :: r = dbg x ++ d :: r1 ∧ p d = false ∧
      ((d = ']' ∧ xs = [] ∧ r1 = r) ∨ (d = ',' ∧ xs ≠ [] ∧ r1 = ' ' :: (debugItems dbg xs ++ ']' :: r))) := by
    intro x xs r
    cases xs with
    | nil => exact ⟨']', r, rfl, by decide, Or.inl ⟨rfl, rfl, rfl⟩⟩
    | cons z zs => exact ⟨',', _, by simp [debugItems], by decide, Or.inr ⟨rfl, by simp, rfl⟩⟩
  have empty : ∀ (x : I) (xs : List I) (r r' : List Char), ']' :: r ≠ debugItems dbg (x :: xs) ++ ']' :: r' := by
    intro x xs r r' h
    obtain ⟨d, r1, h1, _, _⟩ := head x xs r'
    rw [h1] at h
    cases hx : dbg x with
    | nil => exact hp.ne x hx
    | cons c cs =>
      rw [hx] at h
      simp only [List.cons_append, List.cons.injEq] at h
      exact (hp.plain x c (by rw [hx]; simp)).2 h.1.symm
  intro row
  induction row with
  | nil =>
    intro row' r r' h
    cases row' with
    | nil => exact ⟨rfl, by simpa [debugItems] using h⟩
    | cons y ys => exact absurd h (empty y ys r r')
  | cons x xs ih =>
    intro row' r r' h
    cases row' with
    | nil => exact absurd h.symm (empty x xs r' r)
    | cons y ys =>
      obtain ⟨d, r1, h1, hd, hc⟩ := head x xs r
      obtain ⟨d', r1', h1', hd', hc'⟩ := head y ys r'
      rw [h1, h1'] at h
      obtain ⟨e1, e2, e3⟩ := split_at (hpl x) (hpl y) hd hd' h
      obtain rfl := hp.inj _ _ e1
      rcases hc with ⟨rfl, rfl, rfl⟩ | ⟨rfl, _, rfl⟩
      · rcases hc' with ⟨_, rfl, rfl⟩ | ⟨rfl, _, _⟩
        · exact ⟨rfl, e3⟩
        · exact absurd e2 (by decide)
      · rcases hc' with ⟨rfl, _, _⟩ | ⟨_, _, rfl⟩
        · exact absurd e2 (by decide)
        · obtain ⟨rfl, rfl⟩ := ih ys r r' (by simpa using e3)
          exact ⟨rfl, rfl⟩

theorem toDigits_digit {n : Nat} {c : Char} (h : c ∈ Nat.toDigits 10 n) : c.isDigit = true := Nat.isDigit_of_mem_toDigits (by decide) (by decide) h

theorem toDigits_inj {a b : Nat} (h : Nat.toDigits 10 a = Nat.toDigits 10 b) : a = b := by
  have h2 := congrArg (fun l => Nat.ofDigitChars 10 l 0) h
  simpa only [Nat.ofDigitChars_ten_toDigits] using h2

theorem padLeft4_inj {a b : Nat} (h : padLeft4 (Nat.toDigits 10 a) = padLeft4 (Nat.toDigits 10 b)) : a = b := by
  have strip : ∀ n, (padLeft4 (Nat.toDigits 10 n)).filter Char.isDigit = Nat.toDigits 10 n := by
    intro n
    rw [padLeft4, List.filter_append, List.filter_replicate, if_neg (by decide), List.nil_append, List.filter_eq_self]
    exact fun c hc => toDigits_digit hc
  apply toDigits_inj
  rw [← strip a, ← strip b, h]

theorem padLeft4_plain {n : Nat} {c : Char} (h : c ∈ padLeft4 (Nat.toDigits 10 n)) : c ≠ ':' := by
  rw [padLeft4, List.mem_append] at h
  rintro rfl
  rcases h with h | h
  · exact absurd (List.eq_of_mem_replicate h) (by decide)
  · exact absurd (toDigits_digit h) (by decide)

theorem mspLine_prefix {I : Type} {dbg : I → List Char} (hp : Printable dbg) {a a' : UInt32} {row row' : List I} {r r' : List Char}
    (h : mspLine dbg a row ++ r = mspLine dbg a' row' ++ r') : a = a' ∧ row = row' ∧ r = r' := by
  simp only [mspLine, List.append_assoc, List.append_cancel_left_eq] at h
  obtain ⟨e1, _, e3⟩ := split_at (p := fun c => decide (c ≠ ':')) (d := ':') (d' := ':') (fun c hc => decide_eq_true (padLeft4_plain hc))
    (fun c hc => decide_eq_true (padLeft4_plain hc)) (by decide) (by decide) h
  have e4 : debugItems dbg row ++ ']' :: ('\n' :: r) = debugItems dbg row' ++ ']' :: ('\n' :: r') := by simpa using e3
  obtain ⟨rfl, e5⟩ := debugItems_prefix hp row row' _ _ e4
  exact ⟨UInt32.toNat_inj.1 (padLeft4_inj e1), rfl, by simpa using e5⟩

/-- **C88.** The text printed for a span program determines its labels and entries, whatever the (unambiguous) printing of entries. -/
theorem C88_matrices {I : Type} {dbg : I → List Char} (hp : Printable dbg) {m m' : Msp I} (hm : m.Regular) (hm' : m'.Regular)
    (h : m.display dbg = m'.display dbg) : m = m' := by
  have hz : ∀ (l l' : List (UInt32 × List I)), l.flatMap (fun p => mspLine dbg p.1 p.2) = l'.flatMap (fun p => mspLine dbg p.1 p.2) → l = l' := by
    have hne : ∀ (a : UInt32) (row : List I) (r : List Char), mspLine dbg a row ++ r ≠ [] := by intro a row r; simp [mspLine]
    intro l
    induction l with
    | nil =>
      intro l' h
      cases l' with
      | nil => rfl
      | cons q l' => exact absurd h.symm (by rw [List.flatMap_cons]; exact hne _ _ _)
    | cons q l ih =>
      intro l' h
      cases l' with
      | nil => exact absurd h (by rw [List.flatMap_cons]; exact hne _ _ _)
      | cons q' l' =>
        rw [List.flatMap_cons, List.flatMap_cons] at h
        obtain ⟨h1, h2, h3⟩ := mspLine_prefix hp h
        rw [ih l' h3, Prod.ext h1 h2]
  have hzip := hz _ _ (by simpa [Msp.display] using h)
  have h1 : m.rowToAttr = m'.rowToAttr := by
    have := congrArg (List.map Prod.fst) hzip
    rwa [List.map_fst_zip (by rw [hm.rows, hm.labels]), List.map_fst_zip (by rw [hm'.rows, hm'.labels])] at this
  have h2 : m.matrix = m'.matrix := by
    have := congrArg (List.map Prod.snd) hzip
    rwa [List.map_snd_zip (by rw [hm.rows, hm.labels]), List.map_snd_zip (by rw [hm'.rows, hm'.labels])] at this
  have h3 : m.nbRow = m'.nbRow := by rw [← hm.rows, ← hm'.rows, h2]
  have h4 : m.nbCol = m'.nbCol := by
    have hpos := hm.row_pos
    rw [← hm.rows] at hpos
    obtain ⟨row, hrow⟩ := List.exists_mem_of_length_pos hpos
    rw [← hm.width row hrow, hm'.width row (h2 ▸ hrow)]
  have h5 : m.attrToRow = m'.attrToRow := by rw [hm.index, hm'.index, h1]
  cases m
  cases m'
  simp_all

/-- Signed numbers are printed unambiguously. -/
theorem debugInt_printable : Printable debugInt where
  ne x := by
    unfold debugInt
    split
    · simp
    · exact fun h => absurd (congrArg List.length h) (by have := Nat.length_toDigits_pos (b := 10) (n := x.natAbs); simp)
  plain x c hc := by
    have : c = '-' ∨ c.isDigit = true := by
      unfold debugInt at hc
      split at hc
      · rcases List.mem_cons.1 hc with h | h
        · exact Or.inl h
        · exact Or.inr (toDigits_digit h)
      · exact Or.inr (toDigits_digit hc)
    rcases this with rfl | h
    · decide
    · constructor <;> rintro rfl <;> exact absurd h (by decide)
  inj x y h := by
    have nominus : ∀ n : Nat, ∀ l : List Char, Nat.toDigits 10 n ≠ '-' :: l := by
      intro n l h
      exact absurd (toDigits_digit (n := n) (c := '-') (by rw [h]; simp)) (by decide)
    unfold debugInt at h
    split at h <;> split at h
    · have := toDigits_inj (List.cons.inj h).2
      omega
    · exact absurd h.symm (nominus _ _)
    · exact absurd h (nominus _ _)
    · have := toDigits_inj h
      omega

/-- **C88.** In particular the text printed for the matrix of a formula determines the matrix. -/
theorem C88_formula_matrices {n n' : Node} {m m' : Msp Int} (h : n.toMsp = .ok m) (h' : n'.toMsp = .ok m') (hd : m.display debugInt = m'.display debugInt) :
    m = m' := by
  have hid : ∀ m : Msp Int, m.convert id = m := by intro m; simp [Msp.convert]
  refine C88_matrices debugInt_printable ?_ ?_ hd
  · have := (toMsp_regular h (id : Int → Int)).1
    rwa [hid] at this
  · have := (toMsp_regular h' (id : Int → Int)).1
    rwa [hid] at this

namespace Demo

/-- The private key of the demo is printed in 584 characters. -/
example : Revealed (privKeyCodec .release64 codecs) mkF.privKey 584 := (C88_master_keys codecs_lawful curveF mkF_eq (by decide) (by decide) (by decide)).1

/-- A user key for `High && (HR || MKG)` is printed in 1336 characters, and equals itself and no key made from another draw. -/
example : ∃ key key', engineGenerateUserKey (bls curveF) policy mkF.privKey ap drawsF = .ok key ∧
    engineGenerateUserKey (bls curveF) policy mkF.privKey ap (fun _ => 3) = .ok key' ∧
    Revealed (userKeyCodec .release64 codecs (bls curveF)) key 1336 ∧ keyEq key key = true ∧ keyEq key key' = false := by
  obtain ⟨key, h⟩ := keyF_exists
  obtain ⟨key', h'⟩ : ∃ key, engineGenerateUserKey (bls curveF) policy mkF.privKey ap (fun _ => 3) = .ok key := exists_of_isOk (by decide +kernel)
  have i : Held curveF .release64 codecs key := .generate _ _ _ _ h
  have i' : Held curveF .release64 codecs key' := .generate _ _ _ _ h'
  refine ⟨key, key', h, h', C88_user_keys codecs_lawful curveF (size := 8) mkF_eq (.generate _ policy_reachable h) ap_values (by decide) (by decide),
    (C89_equality curveF i i).2 rfl, ?_⟩
  rw [← Bool.not_eq_true, C89_equality curveF i i']
  rintro rfl
  exact absurd ((C87_draws curveF (size := 8) mkF_eq policy_reachable h h').1 rfl 0 (by decide)) (by decide)

/-- The matrices of `1 & 2` and `2 & 1` are printed differently. -/
example : ∃ m m', (Node.and (.leaf 1) (.leaf 2)).toMsp = .ok m ∧ (Node.and (.leaf 2) (.leaf 1)).toMsp = .ok m' ∧ m.display debugInt ≠ m'.display debugInt := by
  obtain ⟨m, h⟩ : ∃ m, (Node.and (.leaf 1) (.leaf 2)).toMsp = .ok m := exists_of_isOk (by decide +kernel)
  obtain ⟨m', h'⟩ : ∃ m, (Node.and (.leaf 2) (.leaf 1)).toMsp = .ok m := exists_of_isOk (by decide +kernel)
  refine ⟨m, m', h, h', fun hd => ?_⟩
  have := C88_formula_matrices h h' hd
  subst this
  exact absurd (h.trans h'.symm) (by decide +kernel)

/-- The span program of `17 & (2 & 12345)`. -/
example : (match (Node.and (.leaf 17) (.and (.leaf 2) (.leaf 12345))).toMsp with
    | .ok m => m.display debugInt
    | _ => []) = "\nattr   17: [1, 2, 1]\nattr    2: [0, -1, 1]\nattr 12345: [0, 0, -1]\n".toList := by decide +kernel

end Demo

end Abe

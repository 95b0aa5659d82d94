import Verif.Proofs.Codec
import Verif.Proofs.Engine

/-!
# Lemmas on the encodings of keys and ciphertexts
-/

namespace Abe

set_option linter.unusedSectionVars false

variable {α β γ : Type}

/-- The facts shared by all encodings of variable size: `Good` objects round-trip, `Bad` inputs are those on which decoding is
not canonical or panics. -/
structure Codec.Laws (c : Codec α) (Good : α → Prop) (Bad : Bytes → Prop) (B : Nat) : Prop where
  round : ∀ x, Good x → ∃ b, c.enc x = .ok b ∧ b.length = c.len x ∧ b ≠ [] ∧ ∀ r, (b ++ r).length < B → c.dec (b ++ r) = .ok x
  canon : ∀ b x, b.length < B → ¬ Bad b → b ≠ [] → c.dec b = .ok x →
    Good x ∧ c.len x ≤ b.length ∧ c.enc x = .ok (b.take (c.len x))
  total : ∀ b, b.length < B → ¬ Bad b → c.dec b ≠ .panic
  prefixOk : ∀ x b r k, Good x → c.enc x = .ok b → (b ++ r).length < B → ¬ Bad ((b ++ r).take k)
  notBad : ¬ Bad []
  emptyLen : ∀ x, c.dec [] = .ok x → c.len x = 0

theorem Codec.Fixed.laws {c : Codec α} {n : Nat} (h : c.Fixed n) (B : Nat) : c.Laws (fun _ => True) (fun _ => False) B where
  round x _ := by
    obtain ⟨b, h1, h2⟩ := h.enc x
    have := h.pos
    exact ⟨b, h1, by rw [h2, h.len], by rintro rfl; simp at h2; omega, fun r _ => h.round x b r h1⟩
  canon b x _ _ _ hd := by
    have hle : n ≤ b.length := by
      by_contra hlt
      obtain ⟨e, he⟩ := h.short b (not_le.1 hlt)
      rw [he] at hd; simp at hd
    exact ⟨trivial, by rw [h.len]; exact hle, by rw [h.len]; exact h.canon b x hd⟩
  total b _ _ := h.total b
  prefixOk _ _ _ _ _ _ _ := id
  notBad := id
  emptyLen x hd := by
    obtain ⟨e, he⟩ := h.short [] (by simpa using h.pos)
    rw [he] at hd; simp at hd

theorem ofBe32_prefix {b r : Bytes} {k : Nat} (hb : 4 ≤ b.length) (hk : 4 ≤ ((b ++ r).take k).length) :
    ofBe32 ((b ++ r).take k) = ofBe32 b := by
  have hk' : 4 ≤ k := by simp at hk; omega
  rw [← ofBe32_take hk, List.take_take, Nat.min_eq_left hk', List.take_append_of_le_length hb, ofBe32_take hb]

/-- A zero or unrepresentable count of elements of `n` bytes. -/
def BadCount (t : Target) (n : Nat) (b : Bytes) : Prop := ZeroCount b ∨ CountOverflow t n b

theorem vecCodec_laws {t : Target} {c : Codec α} {n : Nat} (h : c.Fixed n) {B : Nat} (hBt : B ≤ t.modulus) :
    (vecCodec t c).Laws (fun l => l ≠ [] ∧ l.length < 2 ^ 32 - 1) (BadCount t n) B where
  round l hl := by
    obtain ⟨bs, h1, h2, h3⟩ := vecEnc_ok h hl.1 (by omega)
    exact ⟨_, h2, h3, by simp [be32], fun r hr => vecDec_round h hl.1 hl.2 h2 r (by
      rw [List.length_append] at hr; omega)⟩
  canon b l _ hz hne hd := by
    obtain ⟨h1, h2, h3, h4⟩ := vecDec_inv h hne (fun h => hz (Or.inl h)) (fun h => hz (Or.inr h)) hd
    exact ⟨⟨h1, h2⟩, h3, h4⟩
  total b _ hz := vecDec_total h (fun h => hz (Or.inl h)) (fun h => hz (Or.inr h))
  prefixOk l b r k hl hb hB := by
    obtain ⟨bs, h1, h2, h3⟩ := vecEnc_ok h hl.1 (by omega)
    have hb' : vecEnc c l = .ok b := hb
    rw [h2] at hb'
    simp only [Res.ok.injEq] at hb'
    have hcnt : 4 < ((b ++ r).take k).length → (ofBe32 ((b ++ r).take k)).toNat = l.length := by
      intro hlen
      rw [ofBe32_prefix (by rw [← hb']; simp [be32_length]) (by omega), ← hb', ofBe32_be32, toNat_toUInt32 (by omega)]
    rintro (⟨hlen, h0⟩ | ⟨hlen, h0⟩)
    · have h0' := hcnt hlen
      have hpos := List.length_pos_of_ne_nil hl.1
      rw [h0, UInt32.toNat_zero] at h0'
      omega
    · rw [hcnt hlen, ← vecLen_eq h hl.1, ← h3, hb'] at h0
      rw [List.length_append] at hB
      omega
  notBad := by simp [BadCount, ZeroCount, CountOverflow]
  emptyLen l hd := by
    simp only [vecCodec, vecDec, List.isEmpty_nil, if_true, Res.ok.injEq] at hd
    subst hd; rfl

/-- A matrix input with a zero dimension. -/
def ZeroDim (b : Bytes) : Prop := (4 ≤ b.length ∧ ofBe32 b = 0) ∨ (8 ≤ b.length ∧ ofBe32 (b.drop 4) = 0)

/-- Regular matrices of encodable size. -/
def MspGood {I : Type} (m : Msp I) : Prop := m.Regular ∧ m.nbRow < 2 ^ 32 ∧ m.nbCol < 2 ^ 32

/-- Zero or unrepresentable dimensions. -/
def BadDim (t : Target) (n : Nat) (b : Bytes) : Prop := ZeroDim b ∨ (8 ≤ b.length ∧ DimOverflow t n b)

theorem mspDec_cases' {t : Target} {c : Codec α} {n : Nat} (h : c.Fixed n) {b : Bytes} (hbad : ¬ BadDim t n b) :
    (∃ e, mspDec t c b = .err e) ∨
    (∃ m, mspDec t c b = .ok m ∧ m.nbRow = (ofBe32 b).toNat ∧ m.nbCol = (ofBe32 (b.drop 4)).toNat ∧
      (0 < m.nbRow → 0 < m.nbCol → m.Regular ∧ mspLen c m ≤ b.length ∧ mspEnc c m = .ok (b.take (mspLen c m)))) := by
  by_cases h8 : b.length < 8
  · exact Or.inl ⟨_, by unfold mspDec mspHeader; rw [if_pos h8]; rfl⟩
  · exact mspDec_cases h fun ho => hbad (Or.inr ⟨by omega, ho⟩)

theorem mspCodec_laws {t : Target} {c : Codec α} {n : Nat} (h : c.Fixed n) {B : Nat} (hBt : B ≤ t.modulus) :
    (mspCodec t c).Laws MspGood (BadDim t n) B where
  round m hm := by
    obtain ⟨parts, h1, h2, h3, h4⟩ := mspEnc_ok h hm.1 hm.2.1 hm.2.2
    exact ⟨_, h2, msp_len h hm.1 hm.2.1 hm.2.2 h2, by simp [be32],
      fun r hr => mspDec_round h hm.1 hm.2.1 hm.2.2 h2 r (by omega)⟩
  canon b m hB hz hne hd := by
    have hd' : mspDec t c b = .ok m := hd
    rcases mspDec_cases' h hz with ⟨e, he⟩ | ⟨m', h1, h2, h3, h4⟩
    · rw [he] at hd'; simp at hd'
    · rw [h1] at hd'
      simp only [Res.ok.injEq] at hd'
      subst hd'
      have h8 : 8 ≤ b.length := by
        by_contra hlt
        unfold mspDec mspHeader at h1
        rw [if_pos (by omega)] at h1
        simp [Res.err_bind] at h1
      have hR : 0 < m'.nbRow := by
        rw [h2, Nat.pos_iff_ne_zero]
        intro h0
        exact hz (Or.inl (Or.inl ⟨by omega, UInt32.toNat_inj.1 h0⟩))
      have hC : 0 < m'.nbCol := by
        rw [h3, Nat.pos_iff_ne_zero]
        intro h0
        exact hz (Or.inl (Or.inr ⟨h8, UInt32.toNat_inj.1 h0⟩))
      obtain ⟨g1, g2, g3⟩ := h4 hR hC
      exact ⟨⟨g1, by rw [h2]; exact UInt32.toNat_lt _, by rw [h3]; exact UInt32.toNat_lt _⟩, g2, g3⟩
  total b hB hz := by
    rcases mspDec_cases' h hz with ⟨e, he⟩ | ⟨m', h1, _⟩
    · simp [mspCodec, he]
    · simp [mspCodec, h1]
  prefixOk m b r k hm hb hB := by
    obtain ⟨parts, h1, h2, h3, h4⟩ := mspEnc_ok h hm.1 hm.2.1 hm.2.2
    have hb' : mspEnc c m = .ok b := hb
    rw [h2] at hb'
    simp only [Res.ok.injEq] at hb'
    have hrp := hm.1.row_pos
    have hcp := hm.1.col_pos
    have hlb := msp_len h hm.1 hm.2.1 hm.2.2 hb
    have hR : 4 ≤ ((b ++ r).take k).length → (ofBe32 ((b ++ r).take k)).toNat = m.nbRow := by
      intro hlen
      rw [ofBe32_prefix (by rw [← hb']; simp [be32_length]) hlen, ← hb']
      simp only [List.append_assoc]
      rw [ofBe32_be32, toNat_toUInt32 hm.2.1]
    have hC : 8 ≤ ((b ++ r).take k).length → (ofBe32 (((b ++ r).take k).drop 4)).toNat = m.nbCol := by
      intro hlen
      have hbl : 8 ≤ b.length := by rw [← hb']; simp only [List.length_append, be32_length]; omega
      have hk : 8 ≤ k := by simp at hlen; omega
      rw [List.drop_take, List.drop_append_of_le_length (by omega), ofBe32_prefix (by simp; omega) (by simp; omega), ← hb']
      simp only [List.append_assoc]
      rw [List.drop_left' (be32_length _), ofBe32_be32, toNat_toUInt32 hm.2.2]
    rintro ((⟨hlen, h0⟩ | ⟨hlen, h0⟩) | ⟨hlen, h0⟩)
    · have := hR hlen
      rw [h0, UInt32.toNat_zero] at this
      omega
    · have := hC hlen
      rw [h0, UInt32.toNat_zero] at this
      omega
    · unfold DimOverflow at h0
      rw [hR (by omega), hC hlen] at h0
      rw [List.length_append, hlb, h4] at hB
      have hone : m.nbCol * n ≤ m.nbRow * (m.nbCol * n) := Nat.le_mul_of_pos_left _ hrp
      rw [Nat.mul_assoc] at h0
      omega
  notBad := by simp [BadDim, ZeroDim]
  emptyLen m hd := by
    simp [mspCodec, mspDec, mspHeader] at hd

/-! ### Sequences -/

/-- Two encodings one after the other. -/
def seqCodec (c1 : Codec α) (c2 : Codec β) (mk : α → β → γ) (p1 : γ → α) (p2 : γ → β) : Codec γ where
  enc z := do
    let a ← c1.enc (p1 z)
    let b ← c2.enc (p2 z)
    .ok (a ++ b)
  dec bytes := do
    let x ← c1.dec bytes
    let rest ← sliceFrom bytes (c1.len x)
    let y ← c2.dec rest
    .ok (mk x y)
  len z := c1.len (p1 z) + c2.len (p2 z)

theorem seqCodec_laws {c1 : Codec α} {c2 : Codec β} {mk : α → β → γ} {p1 : γ → α} {p2 : γ → β} {G1 : α → Prop} {G2 : β → Prop}
    {B1 B2 : Bytes → Prop} {B : Nat} (h1 : c1.Laws G1 B1 B) (h2 : c2.Laws G2 B2 B) (he : ∃ e, c2.dec [] = .err e)
    (hp1 : ∀ x y, p1 (mk x y) = x) (hp2 : ∀ x y, p2 (mk x y) = y) :
    (seqCodec c1 c2 mk p1 p2).Laws (fun z => G1 (p1 z) ∧ G2 (p2 z) ∧ mk (p1 z) (p2 z) = z)
      (fun b => B1 b ∨ ∃ x, c1.dec b = .ok x ∧ B2 (b.drop (c1.len x))) B := by
  obtain ⟨ee, hee⟩ := he
  have hle : ∀ b x, b.length < B → ¬ B1 b → c1.dec b = .ok x → c1.len x ≤ b.length := by
    intro b x hB hb hd
    by_cases hne : b = []
    · subst hne; rw [h1.emptyLen x hd]; omega
    · exact (h1.canon b x hB hb hne hd).2.1
  constructor
  · rintro z ⟨g1, g2, g3⟩
    obtain ⟨a, e1, l1, n1, r1⟩ := h1.round _ g1
    obtain ⟨b, e2, l2, n2, r2⟩ := h2.round _ g2
    refine ⟨a ++ b, by simp [seqCodec, e1, e2], by simp [seqCodec, l1, l2], by simp [n1], fun r hr => ?_⟩
    have hr' : a.length + b.length + r.length < B := by simpa [Nat.add_assoc] using hr
    simp only [seqCodec]
    rw [List.append_assoc, r1 _ (by simp; omega), Res.ok_bind, ← l1, sliceFrom_ok (by simp), Res.ok_bind, List.drop_left,
      r2 _ (by simp; omega), Res.ok_bind, g3]
  · intro b z hB hbad hne hd
    simp only [seqCodec] at hd
    obtain ⟨x, d1, hd⟩ := Res.bind_eq_ok.1 hd
    obtain ⟨rest, d2, hd⟩ := Res.bind_eq_ok.1 hd
    obtain ⟨y, d3, hd⟩ := Res.bind_eq_ok.1 hd
    simp only [Res.ok.injEq] at hd
    subst hd
    have hb1 : ¬ B1 b := fun h => hbad (Or.inl h)
    obtain ⟨g1, g2, g3⟩ := h1.canon b x hB hb1 hne d1
    rw [sliceFrom_ok g2] at d2
    simp only [Res.ok.injEq] at d2
    subst d2
    have hb2 : ¬ B2 (b.drop (c1.len x)) := fun h => hbad (Or.inr ⟨x, d1, h⟩)
    have hne2 : b.drop (c1.len x) ≠ [] := by
      intro h0; rw [h0, hee] at d3; simp at d3
    obtain ⟨f1, f2, f3⟩ := h2.canon _ y (by simp; omega) hb2 hne2 d3
    rw [List.length_drop] at f2
    refine ⟨⟨by rwa [hp1], by rwa [hp2], by rw [hp1, hp2]⟩, by simp only [seqCodec, hp1, hp2]; omega, ?_⟩
    simp only [seqCodec, hp1, hp2, g3, f3, Res.ok_bind, List.take_add]
  · intro b hB hbad
    have hb1 : ¬ B1 b := fun h => hbad (Or.inl h)
    simp only [seqCodec]
    cases hd : c1.dec b with
    | panic => exact absurd hd (h1.total b hB hb1)
    | err e => simp
    | ok x =>
      rw [Res.ok_bind, sliceFrom_ok (hle b x hB hb1 hd), Res.ok_bind]
      cases hd2 : c2.dec (b.drop (c1.len x)) with
      | panic => exact absurd hd2 (h2.total _ (by simp; omega) fun h => hbad (Or.inr ⟨x, hd, h⟩))
      | err e => simp
      | ok y => simp
  · rintro z b r k ⟨g1, g2, g3⟩ hb hB
    obtain ⟨a, e1, l1, n1, r1⟩ := h1.round _ g1
    obtain ⟨b2, e2, l2, n2, r2⟩ := h2.round _ g2
    simp only [seqCodec, e1, e2, Res.ok_bind, Res.ok.injEq] at hb
    subst hb
    rw [List.append_assoc] at hB ⊢
    rintro (hbad | ⟨x, hx, hbad⟩)
    · exact h1.prefixOk _ _ _ k g1 e1 hB hbad
    · by_cases hnil : (a ++ (b2 ++ r)).take k = []
      · rw [hnil, List.drop_nil] at hbad; exact h2.notBad hbad
      · obtain ⟨f1, f2, f3⟩ := h1.canon _ x (by rw [List.length_take]; omega) (h1.prefixOk _ _ _ k g1 e1 hB) hnil hx
        obtain ⟨a', e1', l1', n1', r1'⟩ := h1.round _ f1
        rw [f3] at e1'
        simp only [Res.ok.injEq] at e1'
        have hsplit : a' ++ (a ++ (b2 ++ r)).drop (c1.len x) = a ++ (b2 ++ r) := by
          rw [← e1', List.take_take, Nat.min_eq_left (by rw [List.length_take] at f2; omega), List.take_append_drop]
        have hx1 := r1' ((a ++ (b2 ++ r)).drop (c1.len x)) (by rw [hsplit]; exact hB)
        rw [hsplit, r1 _ hB] at hx1
        simp only [Res.ok.injEq] at hx1
        rw [← hx1, ← l1, List.drop_take, List.drop_left] at hbad
        exact h2.prefixOk _ _ _ _ g2 e2 (by simp at hB ⊢; omega) hbad
  · rintro (h | ⟨x, hx, h⟩)
    · exact h1.notBad h
    · rw [List.drop_nil] at h; exact h2.notBad h
  · intro z hd
    exfalso
    simp only [seqCodec] at hd
    obtain ⟨x, d1, hd⟩ := Res.bind_eq_ok.1 hd
    obtain ⟨rest, d2, hd⟩ := Res.bind_eq_ok.1 hd
    obtain ⟨y, d3, hd⟩ := Res.bind_eq_ok.1 hd
    rw [h1.emptyLen x d1, sliceFrom_ok (by simp)] at d2
    simp only [Res.ok.injEq] at d2
    rw [← d2, List.drop_nil, hee] at d3
    simp at d3

/-- The laws only depend on successes and panics. -/
theorem Codec.Laws.congr {c c' : Codec α} {G : α → Prop} {Bd : Bytes → Prop} {B : Nat} (h : c.Laws G Bd B)
    (henc : ∀ x b, c.enc x = .ok b ↔ c'.enc x = .ok b) (hlen : ∀ x, c.len x = c'.len x)
    (hok : ∀ b x, ¬ Bd b → b.length < B → (c.dec b = .ok x ↔ c'.dec b = .ok x))
    (hp : ∀ b, ¬ Bd b → b.length < B → (c.dec b = .panic ↔ c'.dec b = .panic)) (hB : 0 < B) : c'.Laws G Bd B := by
  constructor
  · intro x hx
    obtain ⟨b, h1, h2, h3, h4⟩ := h.round x hx
    refine ⟨b, (henc x b).1 h1, by rw [h2, hlen], h3, fun r hr => ?_⟩
    have hb := h.prefixOk x b r (b ++ r).length hx h1 hr
    rw [List.take_length] at hb
    exact (hok _ _ hb hr).1 (h4 r hr)
  · intro b x hB hb hne hd
    obtain ⟨h1, h2, h3⟩ := h.canon b x hB hb hne ((hok b x hb hB).2 hd)
    rw [← hlen]
    exact ⟨h1, h2, (henc _ _).1 h3⟩
  · intro b hB hb hd
    exact h.total b hB hb ((hp b hb hB).2 hd)
  · intro x b r k hx hb
    exact h.prefixOk x b r k hx ((henc _ _).2 hb)
  · exact h.notBad
  · intro x hd
    rw [← hlen]
    exact h.emptyLen x ((hok _ _ h.notBad (by simpa using hB)).2 hd)

theorem Codec.Laws.roundTrips {c : Codec α} {G : α → Prop} {Bd : Bytes → Prop} {B : Nat} (h : c.Laws G Bd B) {x : α} (hx : G x) :
    c.RoundTrips B x := by
  obtain ⟨b, h1, h2, _, h4⟩ := h.round x hx
  exact ⟨b, h1, h2, h4⟩

theorem Codec.Laws.canonicalAt {c : Codec α} {G : α → Prop} {Bd : Bytes → Prop} {B : Nat} (h : c.Laws G Bd B) {b : Bytes}
    (hB : b.length < B) (hb : ¬ Bd b) (hne : b ≠ []) : c.CanonicalAt b := fun x hx => (h.canon b x hB hb hne hx).2

theorem Codec.Laws.refuses {c : Codec α} {G : α → Prop} {Bd : Bytes → Prop} {B : Nat} (h : c.Laws G Bd B) {x : α} (hx : G x)
    {b : Bytes} (hb : c.enc x = .ok b) (hB : b.length < B) {k : Nat} (hk : k < b.length) (h0 : k ≠ 0 ∨ ∃ e, c.dec [] = .err e) :
    ∃ e, c.dec (b.take k) = .err e := by
  obtain ⟨b', e1, l1, n1, r1⟩ := h.round x hx
  rw [hb] at e1
  simp only [Res.ok.injEq] at e1
  subst e1
  have hbad : ¬ Bd (b.take k) := by
    have := h.prefixOk x b [] k hx hb (by simpa using hB)
    rwa [List.append_nil] at this
  by_cases hk0 : k = 0
  · subst hk0
    rw [List.take_zero]
    rcases h0 with h0 | h0
    · exact absurd rfl h0
    · exact h0
  · cases hd : c.dec (b.take k) with
    | err e => exact ⟨e, rfl⟩
    | panic => exact absurd hd (h.total _ (by rw [List.length_take]; omega) hbad)
    | ok x' =>
      exfalso
      obtain ⟨g1, g2, g3⟩ := h.canon _ x' (by rw [List.length_take]; omega) hbad (by
        intro h0
        have := congrArg List.length h0
        rw [List.length_take, List.length_nil] at this
        omega) hd
      obtain ⟨b'', e2, l2, n2, r2⟩ := h.round x' g1
      rw [g3] at e2
      simp only [Res.ok.injEq] at e2
      rw [List.length_take] at g2
      have hsplit : b'' ++ b.drop (c.len x') = b := by
        rw [← e2, List.take_take, Nat.min_eq_left (by omega), List.take_append_drop]
      have h3 := r2 (b.drop (c.len x')) (by rw [hsplit]; exact hB)
      have h4 := r1 [] (by simpa using hB)
      rw [hsplit] at h3
      rw [List.append_nil, h3] at h4
      simp only [Res.ok.injEq] at h4
      subst h4
      omega

/-! ### Keys and ciphertexts -/

section
variable {K G1 G2 G3 Gt : Type} {t : Target} {cs : Codecs K G2 G3 Gt}

theorem privKey_laws (h : cs.Lawful) {B : Nat} (hBt : B ≤ t.modulus) :
    (privKeyCodec t cs).Laws (fun k => k.tI ≠ [] ∧ k.tI.length < 2 ^ 32 - 1) (BadCount t 32) B := by
  have h1 := seqCodec_laws (mk := MasterPrivateKey.mk) (p1 := MasterPrivateKey.tI) (p2 := MasterPrivateKey.y)
    (vecCodec_laws h.scalar hBt) (h.scalar.laws B) (h.scalar.short [] (by decide)) (fun _ _ => rfl) (fun _ _ => rfl)
  have : (privKeyCodec t cs).Laws _ _ B := h1
  simpa using this

theorem pubKey_laws (h : cs.Lawful) {B : Nat} (hBt : B ≤ t.modulus) :
    (pubKeyCodec t cs).Laws (fun k => k.tI ≠ [] ∧ k.tI.length < 2 ^ 32 - 1) (BadCount t 48) B := by
  have h1 := seqCodec_laws (mk := MasterPublicKey.mk) (p1 := MasterPublicKey.tI) (p2 := MasterPublicKey.y)
    (vecCodec_laws h.g2 hBt) (h.gt.laws B) (h.gt.short [] (by decide)) (fun _ _ => rfl) (fun _ _ => rfl)
  have : (pubKeyCodec t cs).Laws _ _ B := h1
  simpa using this

theorem delKey_dec (b : Bytes) (k : DelegationKey G3) :
    (delKeyCodec t cs).dec b = .ok k ↔ (vecCodec t cs.g3).dec b = .ok k.invTI := by
  simp only [delKeyCodec, vecCodec]
  rw [Res.bind_eq_ok]
  constructor
  · rintro ⟨l, h1, h2⟩; simp only [Res.ok.injEq] at h2; subst h2; exact h1
  · intro h; exact ⟨_, h, rfl⟩

theorem delKey_laws (h : cs.Lawful) {B : Nat} (hBt : B ≤ t.modulus) :
    (delKeyCodec t cs).Laws (fun k => k.invTI ≠ [] ∧ k.invTI.length < 2 ^ 32 - 1) (BadCount t 96) B := by
  have h1 := vecCodec_laws (t := t) h.g3 hBt
  constructor
  · intro k hk
    obtain ⟨b, g1, g2, g3, g4⟩ := h1.round _ hk
    exact ⟨b, g1, g2, g3, fun r hr => (delKey_dec _ k).2 (g4 r hr)⟩
  · intro b k hB hb hne hd
    exact h1.canon b _ hB hb hne ((delKey_dec _ k).1 hd)
  · intro b hB hb hd
    apply h1.total b hB hb
    simp only [delKeyCodec, Res.bind_eq_panic] at hd
    rcases hd with hd | ⟨_, _, hd⟩
    · exact hd
    · simp at hd
  · intro k b r i hk hb
    exact h1.prefixOk _ b r i hk hb
  · exact h1.notBad
  · intro k hd
    exact h1.emptyLen _ ((delKey_dec _ k).1 hd)

/-- Inputs for which the second vector of a ciphertext, or the matrix of a user key, starts with a zero or
unrepresentable count or dimension. -/
def BadCipherText (t : Target) (_cs : Codecs K G2 G3 Gt) (b : Bytes) : Prop :=
  BadCount t 4 b ∨ ∃ l, vecDec t u32Codec b = .ok l ∧ BadCount t 48 (b.drop (vecLen u32Codec l))

def BadUserKey (t : Target) (cs : Codecs K G2 G3 Gt) (b : Bytes) : Prop :=
  BadCount t 96 b ∨ ∃ l, vecDec t cs.g3 b = .ok l ∧ BadDim t 32 (b.drop (vecLen cs.g3 l))

theorem userKey_laws (h : cs.Lawful) (bm : BilinearMap K G1 G2 G3 Gt) {B : Nat} (hBt : B ≤ t.modulus) (hB0 : 0 < B) :
    (userKeyCodec t cs bm).Laws (fun k => (k.rawDI ≠ [] ∧ k.rawDI.length < 2 ^ 32 - 1) ∧ MspGood k.msp ∧
      k.dI = k.rawDI.map bm.g3ToG1) (BadUserKey t cs) B := by
  have h1 := seqCodec_laws (γ := DecryptionKey K G1 G3) (mk := fun r m => ⟨r, r.map bm.g3ToG1, m⟩)
    (p1 := DecryptionKey.rawDI) (p2 := DecryptionKey.msp)
    (vecCodec_laws (t := t) h.g3 hBt) (mspCodec_laws (t := t) h.scalar hBt)
    ⟨.invalidSize "minimum len of 8 bytes is required for MSP", by simp [mspCodec, mspDec, mspHeader]⟩ (fun _ _ => rfl) (fun _ _ => rfl)
  have hgood : ∀ k : DecryptionKey K G1 G3,
      ((k.rawDI ≠ [] ∧ k.rawDI.length < 2 ^ 32 - 1) ∧ MspGood k.msp ∧ (⟨k.rawDI, k.rawDI.map bm.g3ToG1, k.msp⟩ : DecryptionKey K G1 G3) = k) ↔
      ((k.rawDI ≠ [] ∧ k.rawDI.length < 2 ^ 32 - 1) ∧ MspGood k.msp ∧ k.dI = k.rawDI.map bm.g3ToG1) := by
    rintro ⟨r, d, m⟩
    simp only [DecryptionKey.mk.injEq, true_and, and_true]
    constructor
    · rintro ⟨a, b, c⟩; exact ⟨a, b, c.symm⟩
    · rintro ⟨a, b, c⟩; exact ⟨a, b, c.symm⟩
  simp only [hgood] at h1
  have hdec : ∀ b, b ≠ [] → (seqCodec (vecCodec t cs.g3) (mspCodec t cs.scalar) (fun r m => ⟨r, r.map bm.g3ToG1, m⟩)
      DecryptionKey.rawDI DecryptionKey.msp : Codec (DecryptionKey K G1 G3)).dec b = (userKeyCodec t cs bm).dec b := by
    intro b hb
    simp only [userKeyCodec, seqCodec]
    rw [if_neg (by simpa using hb)]
    rfl
  have hnil : (seqCodec (vecCodec t cs.g3) (mspCodec t cs.scalar) (fun r m => ⟨r, r.map bm.g3ToG1, m⟩)
      DecryptionKey.rawDI DecryptionKey.msp : Codec (DecryptionKey K G1 G3)).dec [] = .err (.invalidSize "minimum len of 8 bytes is required for MSP") := by
    simp [seqCodec, vecCodec, vecDec, mspCodec, mspDec, mspHeader, vecLen, sliceFrom]
  have hnil' : (userKeyCodec t cs bm).dec [] = .err .emptyPrivateKey := by simp [userKeyCodec]
  refine h1.congr (fun x b => Iff.rfl) (fun x => rfl) (fun b x _ _ => ?_) (fun b _ _ => ?_) hB0
  · by_cases hb : b = []
    · subst hb; rw [hnil, hnil']; simp
    · rw [hdec b hb]
  · by_cases hb : b = []
    · subst hb; rw [hnil, hnil']; simp
    · rw [hdec b hb]

theorem cipherText_laws (h : cs.Lawful) {B : Nat} (hBt : B ≤ t.modulus) (hB : 0 < B) :
    (cipherTextCodec t cs).Laws (fun x => (x.gamma ≠ [] ∧ x.gamma.length < 2 ^ 32 - 1) ∧ (x.eI ≠ [] ∧ x.eI.length < 2 ^ 32 - 1))
      (BadCipherText t cs) B := by
  have h2 := seqCodec_laws (γ := List G2 × Gt) (mk := Prod.mk) (p1 := Prod.fst) (p2 := Prod.snd)
    (vecCodec_laws (t := t) h.g2 hBt) (h.gt.laws B) (h.gt.short [] (by decide)) (fun _ _ => rfl) (fun _ _ => rfl)
  obtain ⟨ge, hge⟩ := h.gt.short [] (by decide)
  have hnil2 : (seqCodec (vecCodec t cs.g2) cs.gt Prod.mk Prod.fst Prod.snd : Codec (List G2 × Gt)).dec [] = .err ge := by
    simp [seqCodec, vecCodec, vecDec, vecLen, sliceFrom, hge]
  have h1 := seqCodec_laws (γ := CipherText G2 Gt) (mk := fun g p => ⟨g, p.2, p.1⟩) (p1 := CipherText.gamma)
    (p2 := fun x => (x.eI, x.ePrime)) (vecCodec_laws (t := t) u32Codec_fixed hBt) h2 ⟨ge, hnil2⟩
    (fun _ _ => rfl) (fun _ _ => rfl)
  have hbad : (fun b => BadCount t 4 b ∨ ∃ x, (vecCodec t u32Codec).dec b = .ok x ∧
      (fun b => BadCount t 48 b ∨ ∃ x, (vecCodec t cs.g2).dec b = .ok x ∧ (fun _ => False) (b.drop ((vecCodec t cs.g2).len x)))
        (b.drop ((vecCodec t u32Codec).len x))) = BadCipherText t cs := by
    funext b
    simp only [and_false, exists_false, or_false, BadCipherText]
    rfl
  rw [hbad] at h1
  simp only [and_true] at h1
  refine h1.congr ?_ ?_ ?_ ?_ hB
  · intro x b
    simp only [seqCodec, cipherTextCodec, vecCodec]
    cases vecEnc u32Codec x.gamma with
    | ok a =>
      simp only [Res.ok_bind]
      cases vecEnc cs.g2 x.eI with
      | ok e => cases cs.gt.enc x.ePrime <;> simp
      | err e => cases cs.gt.enc x.ePrime <;> simp
      | panic => cases cs.gt.enc x.ePrime <;> simp
    | err e => simp
    | panic => simp
  · intro x
    simp only [seqCodec, cipherTextCodec, vecCodec, Nat.add_assoc]
  all_goals
    have hdec : ∀ b, ¬ BadCipherText t cs b → b.length < B →
        (seqCodec (vecCodec t u32Codec) (seqCodec (vecCodec t cs.g2) cs.gt Prod.mk Prod.fst Prod.snd)
          (fun g p => ⟨g, p.2, p.1⟩) CipherText.gamma (fun x => (x.eI, x.ePrime)) : Codec (CipherText G2 Gt)).dec b =
        (cipherTextCodec t cs).dec b := by
      intro b hb hl
      have hv := vecCodec_laws (t := t) u32Codec_fixed hBt
      simp only [seqCodec, cipherTextCodec]
      show ((vecCodec t u32Codec).dec b >>= _) = ((vecCodec t u32Codec).dec b >>= _)
      cases hg : (vecCodec t u32Codec).dec b with
      | panic => rfl
      | err e => rfl
      | ok g =>
        have hgl : (vecCodec t u32Codec).len g ≤ b.length := by
          by_cases hne : b = []
          · subst hne; rw [hv.emptyLen g hg]; omega
          · exact (hv.canon b g hl (fun h => hb (Or.inl h)) hne hg).2.1
        simp only [Res.ok_bind]
        rw [show vecLen u32Codec g = (vecCodec t u32Codec).len g from rfl, sliceFrom_ok hgl]
        simp only [Res.ok_bind]
        show (((vecCodec t cs.g2).dec _ >>= _) >>= _) = ((vecCodec t cs.g2).dec _ >>= _)
        cases hE : (vecCodec t cs.g2).dec (b.drop ((vecCodec t u32Codec).len g)) with
        | panic => rfl
        | err e => rfl
        | ok es =>
          have hs : (sliceFrom b ((vecCodec t u32Codec).len g + vecLen cs.g2 es) : Out Bytes) =
              sliceFrom (b.drop ((vecCodec t u32Codec).len g)) ((vecCodec t cs.g2).len es) := by
            unfold sliceFrom
            rw [List.length_drop, List.drop_drop]
            show _ = if vecLen cs.g2 es ≤ _ then _ else _
            by_cases hc : (vecCodec t u32Codec).len g + vecLen cs.g2 es ≤ b.length
            · rw [if_pos hc, if_pos (by omega)]; rfl
            · rw [if_neg hc, if_neg (by omega)]
          simp only [Res.ok_bind, hs]
          cases (sliceFrom (b.drop ((vecCodec t u32Codec).len g)) ((vecCodec t cs.g2).len es) : Out Bytes) with
          | panic => rfl
          | err e => rfl
          | ok r =>
            simp only [Res.ok_bind]
            cases cs.gt.dec r <;> rfl
  · intro b x hb hl
    rw [hdec b hb hl]
  · intro b hb hl
    rw [hdec b hb hl]

end

/-! ### Matrices of user keys -/

theorem mspAssemble_index (c : Nat) : ∀ (rows : List (UInt32 × List Int)) (mat : List (List Int)) (vec : List UInt32)
    (res : List (List Int) × List (UInt32 × Nat) × List UInt32),
    mspAssemble c rows vec.length mat vec.zipIdx.reverse vec = .ok res → res.2.1 = res.2.2.zipIdx.reverse
  | [], mat, vec, res, h => by
    simp only [mspAssemble, Res.ok.injEq] at h
    subst h; rfl
  | (a, v) :: rows, mat, vec, res, h => by
    simp only [mspAssemble] at h
    cases hg : hget vec.zipIdx.reverse a with
    | some i => rw [hg] at h; simp at h
    | none =>
      rw [hg] at h
      dsimp only at h
      rw [hinsert_labels (hget_labels.1 hg)] at h
      have := mspAssemble_index c rows (mat ++ [addFirst (resize v c 0)]) (vec ++ [a]) res
      rw [show (vec ++ [a]).length = vec.length + 1 by simp] at this
      exact this h

theorem toMsp_index {n : Node} {m : Msp Int} (h : n.toMsp = .ok m) : m.attrToRow = m.rowToAttr.zipIdx.reverse := by
  unfold Node.toMsp at h
  obtain ⟨res, h1, h2⟩ := Res.bind_eq_ok.1 h
  simp only [Res.ok.injEq] at h2
  subst h2
  exact mspAssemble_index _ _ _ [] res h1

theorem policyToMsp_index {p : Policy} {ap : AccessPolicy} {m : Msp Int} (h : policyToMsp p ap = .ok m) :
    m.attrToRow = m.rowToAttr.zipIdx.reverse := by
  unfold policyToMsp at h
  split at h
  · obtain ⟨n, _, h⟩ := Res.bind_eq_ok.1 h
    exact toMsp_index h
  · obtain ⟨n, _, h⟩ := Res.bind_eq_ok.1 h
    exact toMsp_index h

theorem nodup_bound {l : List UInt32} (h : l.Nodup) {N : Nat} (hN : ∀ a ∈ l, a.toNat < N) : l.length ≤ N := by
  have h1 : (l.map UInt32.toNat).Nodup := h.map fun a b hab => UInt32.toNat_inj.1 hab
  have h2 : (l.map UInt32.toNat) ⊆ List.range N := by
    intro x hx
    obtain ⟨a, ha, rfl⟩ := List.mem_map.1 hx
    exact List.mem_range.2 (hN a ha)
  have := (h1.subperm h2).length_le
  simpa using this

theorem Node.ands_lt_leaves (n : Node) : n.ands + 1 ≤ n.leaves.length := by
  induction n with
  | leaf a => simp [Node.ands, Node.leaves]
  | and l r ihl ihr => simp only [Node.ands, Node.leaves, List.length_append]; omega
  | or l r ihl ihr => simp only [Node.ands, Node.leaves, List.length_append]; omega

section
variable {K P Q QP T : Type} [Field K] [DecidableEq K] [AddCommGroup P] [Module K P] [AddCommGroup Q] [Module K Q]
  [AddCommGroup T] [Module K T]

/-- Shape of user keys. -/
structure KeyShape (c : Curve K P Q QP T) (key : DecryptionKey K QP Q) : Prop where
  regular : key.msp.Regular
  cols : key.msp.nbCol ≤ key.msp.nbRow
  raw : key.rawDI.length = key.msp.nbRow
  prepared : key.dI = key.rawDI.map (bls c).g3ToG1

theorem toMsp_regular {n : Node} {m : Msp Int} (h : n.toMsp = .ok m) {J : Type} (conv : Int → J) :
    (m.convert conv).Regular ∧ (m.convert conv).nbCol ≤ (m.convert conv).nbRow ∧ m.matrix.length = m.nbRow := by
  rcases toMsp_spec n with ⟨_, m', h1, hm⟩ | ⟨_, h1⟩
  · rw [h] at h1
    simp only [Res.ok.injEq] at h1
    subst h1
    have hpos : 0 < n.leaves.length := List.length_pos_of_ne_nil n.leaves_ne_nil
    have hlen : m.rowToAttr.length = n.leaves.length := hm.perm.length_eq
    have hrows : m.nbRow = n.leaves.length := by rw [hm.nbRow, ← hm.rta, hlen]
    have hands := n.ands_lt_leaves
    refine ⟨⟨?_, ?_, ?_, ?_, ?_, hm.nodup, toMsp_index h⟩, ?_, hm.nbRow.symm⟩
    · simp [Msp.convert, hm.nbRow]
    · simp only [Msp.convert]; rw [hlen, hrows]
    · intro r hr
      simp only [Msp.convert, List.mem_map] at hr
      obtain ⟨v, hv, rfl⟩ := hr
      simp only [List.length_map]
      exact hm.width v hv
    · show 0 < m.nbRow
      omega
    · show 0 < m.nbCol
      rw [hm.nbCol]; omega
    · show m.nbCol ≤ m.nbRow
      rw [hm.nbCol]; omega
  · rw [h] at h1; simp at h1

theorem policyToMsp_toMsp {p : Policy} {ap : AccessPolicy} {m : Msp Int} (h : policyToMsp p ap = .ok m) :
    ∃ n : Node, n.toMsp = .ok m := by
  unfold policyToMsp at h
  split at h
  · obtain ⟨n, _, h⟩ := Res.bind_eq_ok.1 h
    exact ⟨n, h⟩
  · obtain ⟨n, _, h⟩ := Res.bind_eq_ok.1 h
    exact ⟨n, h⟩

theorem mapRes_prepared (c : Curve K P Q QP T) {I : Type} {f : I → Out (QP × Q)} {l : List I} {ds : List (QP × Q)}
    (h : mapRes f l = .ok ds) (hf : ∀ a d, f a = .ok d → d.1 = (bls c).g3ToG1 d.2) :
    ds.map Prod.fst = (ds.map Prod.snd).map (bls c).g3ToG1 := by
  rw [List.map_map]
  apply List.map_congr_left
  intro d hd
  obtain ⟨i, hi, rfl⟩ := List.getElem_of_mem hd
  have h2 := mapRes_eq_ok.1 h
  exact hf _ _ (h2.get (i := i) (by rw [h2.length_eq]; exact hi) hi)

theorem delegateRow_prepared (c : Curve K P Q QP T) {I : Type} {conv : I → K} {msp : Msp I} {key : DecryptionKey K QP Q}
    {del : DelegationKey Q} {u : List K} {p : List I × Nat} {d : QP × Q} (h : delegateRow (bls c) conv msp key del u p = .ok d) :
    d.1 = (bls c).g3ToG1 d.2 := by
  unfold delegateRow at h
  obtain ⟨attr, _, h⟩ := Res.bind_eq_ok.1 h
  obtain ⟨gt, _, h⟩ := Res.bind_eq_ok.1 h
  dsimp only at h
  split at h
  · obtain ⟨old, _, h⟩ := Res.bind_eq_ok.1 h
    simp only [Res.ok.injEq] at h
    subst h; rfl
  · simp at h

theorem obtained_shape (c : Curve K P Q QP T) {key : DecryptionKey K QP Q} (h : Obtained c key) : KeyShape c key := by
  induction h with
  | generate p priv ap rnd h =>
    unfold engineGenerateUserKey at h
    obtain ⟨m, hm, h⟩ := Res.bind_eq_ok.1 h
    obtain ⟨n, hn⟩ := policyToMsp_toMsp hm
    obtain ⟨g1, g2, g3⟩ := toMsp_regular hn (bls c).fromI32
    unfold keyGeneration at h
    obtain ⟨u, _, h⟩ := Res.bind_eq_ok.1 h
    obtain ⟨ds, hds, h⟩ := Res.bind_eq_ok.1 h
    simp only [Res.ok.injEq] at h
    subst h
    refine ⟨g1, g2, ?_, mapRes_prepared c hds ?_⟩
    · have := mapRes_length hds
      simp only [List.length_map, Msp.convert]
      rw [this, List.length_zipIdx, g3]
    · rintro ⟨row, i⟩ d hd
      unfold keyGenRow at hd
      obtain ⟨attr, _, hd⟩ := Res.bind_eq_ok.1 hd
      split at hd
      · simp at hd
      · obtain ⟨t, _, hd⟩ := Res.bind_eq_ok.1 hd
        obtain ⟨x, _, hd⟩ := Res.bind_eq_ok.1 hd
        simp only [Res.ok.injEq] at hd
        subst hd; rfl
  | delegate p del ap rnd hk h ih =>
    rename_i key0 key'
    unfold engineDelegateUserKey at h
    obtain ⟨msp, hm, h⟩ := Res.bind_eq_ok.1 h
    cases msp with
    | none =>
      simp only [abeKeyDelegation, keyRandomization] at h
      obtain ⟨u, _, h⟩ := Res.bind_eq_ok.1 h
      obtain ⟨ds, hds, h⟩ := Res.bind_eq_ok.1 h
      simp only [Res.ok.injEq] at h
      subst h
      refine ⟨ih.regular, ih.cols, ?_, mapRes_prepared c hds fun _ _ hd => delegateRow_prepared c hd⟩
      have := mapRes_length hds
      simp only [List.length_map]
      rw [this, List.length_zipIdx, ih.regular.rows]
    | some m =>
      have hm' : policyToMsp p ap = .ok m := by
        cases ap with
        | all => simp at hm
        | attr a => simpa [Res.bind_eq_ok] using hm
        | and l r => simpa [Res.bind_eq_ok] using hm
        | or l r => simpa [Res.bind_eq_ok] using hm
      obtain ⟨n, hn⟩ := policyToMsp_toMsp hm'
      obtain ⟨g1, g2, g3⟩ := toMsp_regular hn (bls c).fromI32
      simp only [abeKeyDelegation, keyDelegation] at h
      obtain ⟨u, _, h⟩ := Res.bind_eq_ok.1 h
      obtain ⟨ds, hds, h⟩ := Res.bind_eq_ok.1 h
      simp only [Res.ok.injEq] at h
      subst h
      refine ⟨g1, g2, ?_, mapRes_prepared c hds fun _ _ hd => delegateRow_prepared c hd⟩
      have := mapRes_length hds
      simp only [List.length_map, Msp.convert]
      rw [this, List.length_zipIdx, g3]

theorem KeyShape.good {c : Curve K P Q QP T} {key : DecryptionKey K QP Q} (h : KeyShape c key) (hn : key.msp.nbRow < 2 ^ 32 - 1) :
    (key.rawDI ≠ [] ∧ key.rawDI.length < 2 ^ 32 - 1) ∧ MspGood key.msp ∧ key.dI = key.rawDI.map (bls c).g3ToG1 := by
  have h1 := h.raw
  have h2 := h.regular.row_pos
  have h3 := h.cols
  refine ⟨⟨?_, by omega⟩, ⟨h.regular, by omega, by omega⟩, h.prepared⟩
  intro h0
  rw [h0, List.length_nil] at h1
  omega

end

end Abe

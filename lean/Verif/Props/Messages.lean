import Verif.Spec.Messages
import Verif.Props.Fixtures
import Verif.Props.DemoFfi

/-!
# Messages which tell nothing but sizes (property C99)
-/

set_option linter.unusedSectionVars false

namespace Abe

/-- The errors of an outcome. -/
def Fails {α : Type} (P : FormatErr → Prop) (r : Out α) : Prop := ∀ x, r = .err x → P x

namespace Fails
variable {α β : Type} {P : FormatErr → Prop}

theorem ok (a : α) : Fails P (.ok a : Out α) := fun _ h => by simp at h
theorem panic : Fails P (.panic : Out α) := fun _ h => by simp at h
theorem err {x : FormatErr} (h : P x) : Fails P (.err x : Out α) := fun y hy => by simp only [Res.err.injEq] at hy; exact hy ▸ h

theorem bind {r : Out α} {f : α → Out β} (h : Fails P r) (hf : ∀ a, r = .ok a → Fails P (f a)) : Fails P (r >>= f) := by
  cases r with
  | ok a => exact hf a rfl
  | err x => exact fun y hy => h y (by simpa using hy)
  | panic => exact fun y hy => by simp at hy

theorem ite {c : Prop} [Decidable c] {r r' : Out α} (h : c → Fails P r) (h' : ¬ c → Fails P r') : Fails P (if c then r else r') := by
  split
  · exact h ‹_›
  · exact h' ‹_›

theorem mapRes {f : α → Out β} (h : ∀ a, Fails P (f a)) : ∀ l : List α, Fails P (Abe.mapRes f l)
  | [] => ok _
  | a :: l => (h a).bind fun _ _ => (mapRes h l).bind fun _ _ => ok _

theorem mono {Q : FormatErr → Prop} {r : Out α} (h : Fails P r) (hq : ∀ x, P x → Q x) : Fails Q r := fun x hx => hq x (h x hx)

theorem slice {l : List α} {a b : Nat} : Fails P (Abe.slice l a b) := by
  unfold Abe.slice; exact ite (fun _ => ok _) fun _ => panic
theorem sliceFrom {l : List α} {a : Nat} : Fails P (Abe.sliceFrom l a) := by
  unfold Abe.sliceFrom; exact ite (fun _ => ok _) fun _ => panic
theorem idx {l : List α} {a : Nat} : Fails P (Abe.idx l a) := by
  unfold Abe.idx; split
  · exact ok _
  · exact panic
theorem usub {t : Target} {a b : Nat} : Fails P (t.usub a b) := by
  unfold Target.usub; exact ite (fun _ => ok _) fun _ => ite (fun _ => panic) fun _ => ok _
theorem uadd {t : Target} {a b : Nat} : Fails P (t.uadd a b) := by
  unfold Target.uadd; exact ite (fun _ => ok _) fun _ => ite (fun _ => panic) fun _ => ok _
theorem umul {t : Target} {a b : Nat} : Fails P (t.umul a b) := by
  unfold Target.umul; exact ite (fun _ => ok _) fun _ => ite (fun _ => panic) fun _ => ok _

end Fails

/-- What the text of an error says. -/
def Says (x : Texts) (n : Nat) (e : FormatErr) : Prop := SaysOfBytes n (e.text x)

variable {x : Texts} {n : Nat}

theorem Says.plain {e : FormatErr} (h : e.text x ∈ plainTexts) : Says x n e := Or.inl h

theorem Says.mono {m : Nat} (h : m ≤ n) {e : FormatErr} (hs : Says x m e) : Says x n e :=
  hs.imp_right fun ⟨k, hk, ht⟩ => ⟨k, hk.trans h, ht⟩

/-- An encoding whose errors say nothing but sizes. -/
def Codec.Says {α : Type} (x : Texts) (c : Codec α) : Prop := ∀ b, Fails (Abe.Says x b.length) (c.dec b)

theorem fails_des {α : Type} {m : String} (h : m ∈ plainTexts) : Fails (Says x n) (.err (.deserialization m) : Out α) := .err (Or.inl h)

theorem fails_size {α : Type} {m : String} (h : "invalid size: " ++ m ∈ plainTexts) : Fails (Says x n) (.err (.invalidSize m) : Out α) := .err (Or.inl h)

local macro "plain" : tactic => `(tactic| first | exact fails_des (by decide +kernel) | exact fails_size (by decide +kernel))

theorem u32_says : u32Codec.Says x := fun b => by
  simp only [u32Codec]
  refine Fails.ite (fun _ => ?_) fun _ => Fails.slice.bind fun _ _ => .ok _
  plain

theorem scalar_says (q : Nat) : (scalarCodec q).Says x := fun b => by
  simp only [scalarCodec]
  refine Fails.ite (fun _ => .err (Or.inr ⟨b.length, le_refl _, ?_⟩)) fun _ => Fails.slice.bind fun s _ => ?_
  · change "invalid size: " ++ _ ∈ _
    rw [shortTexts]
    refine List.mem_cons.2 (Or.inl ?_)
    simp only [← String.append_assoc]
    rfl
  · split
    · exact .ok _
    · plain

theorem point_says {α : Type} {name name' : String} {size : Nat} {toC : α → Bytes} {ofC : Bytes → Option α}
    (h : "Error deserializing " ++ name' ∈ plainTexts)
    (h' : ∀ k : Nat, "invalid size: " ++ ("Invalid " ++ name ++ " element (size " ++ toString k ++ ", compressed expected size at least: " ++ toString size ++
      " bytes long), unable to deserialize this " ++ name ++ " element.") ∈ shortTexts k) : (pointCodec name name' size toC ofC).Says x := fun b => by
  simp only [pointCodec]
  refine Fails.ite (fun _ => .err (Or.inr ⟨b.length, le_refl _, h' _⟩)) fun _ => Fails.slice.bind fun s _ => ?_
  split
  · exact .ok _
  · exact .err (.plain h)

section Parts
variable {α : Type} {c : Codec α} {t : Target}

theorem sliceFrom_length {b s : Bytes} {i : Nat} (h : (sliceFrom b i : Out Bytes) = .ok s) : s.length ≤ b.length := by
  unfold sliceFrom at h
  split at h
  · simp only [Res.ok.injEq] at h
    subst h
    simp
  · simp at h

theorem dec_says (h : c.Says x) {b : Bytes} (hb : b.length ≤ n) : Fails (Says x n) (c.dec b) := (h b).mono fun _ he => he.mono hb

theorem vec_says (h : c.Says x) : (vecCodec t c).Says x := fun b => by
  simp only [vecCodec, vecDec]
  refine Fails.ite (fun _ => .ok _) fun _ => Fails.bind ?_ fun r _ => Fails.bind (Fails.mapRes (fun i => ?_) _) fun _ _ => .ok _
  · unfold vecHeader
    refine Fails.ite (fun _ => ?_) fun _ => Fails.slice.bind fun s _ => ?_
    · plain
    refine Fails.ite (fun _ => ?_) fun _ => Fails.sliceFrom.bind fun s hs => (dec_says h (sliceFrom_length hs)).bind fun _ _ =>
      Fails.usub.bind fun _ _ => Fails.umul.bind fun _ _ => Fails.uadd.bind fun _ _ => Fails.ite (fun _ => ?_) fun _ => .ok _
    · plain
    · plain
  · exact Fails.umul.bind fun _ _ => Fails.uadd.bind fun _ _ => Fails.sliceFrom.bind fun s hs => dec_says h (sliceFrom_length hs)

theorem labels_says {b : Bytes} : ∀ (l : List Nat) (vec : List UInt32) (map : List (UInt32 × Nat)), Fails (Says x n) (mspLabels t b l vec map)
  | [], _, _ => .ok _
  | i :: l, vec, map => by
    unfold mspLabels
    refine Fails.umul.bind fun _ _ => Fails.uadd.bind fun _ _ => Fails.uadd.bind fun _ _ => Fails.slice.bind fun s _ => ?_
    dsimp only
    split
    · plain
    · exact labels_says l _ _

theorem msp_says (h : c.Says x) : (mspCodec t c).Says x := fun b => by
  simp only [mspCodec, mspDec]
  have hbase : ∀ r, Fails (Says x b.length) (mspBase t r) := fun r => Fails.umul.bind fun _ _ => Fails.uadd
  have hentry : ∀ r size k, Fails (Says x b.length) (mspEntry t c b r size k) := fun r size k =>
    (hbase r).bind fun _ _ => Fails.umul.bind fun _ _ => Fails.uadd.bind fun _ _ => Fails.sliceFrom.bind fun s hs => dec_says h (sliceFrom_length hs)
  refine Fails.bind ?_ fun r _ => (hbase _).bind fun _ _ => Fails.sliceFrom.bind fun s hs => (dec_says h (sliceFrom_length hs)).bind fun _ _ =>
    Fails.umul.bind fun _ _ => Fails.umul.bind fun _ _ => Fails.uadd.bind fun _ _ => Fails.ite (fun _ => ?_) fun _ => ?_
  · unfold mspHeader
    refine Fails.ite (fun _ => ?_) fun _ => Fails.slice.bind fun _ _ => Fails.slice.bind fun _ _ => Fails.umul.bind fun _ _ => Fails.uadd.bind fun _ _ =>
      Fails.ite (fun _ => ?_) fun _ => (labels_says _ _ _).bind fun _ _ => .ok _
    · plain
    · plain
  · plain
  · exact (Fails.mapRes (fun k => hentry _ _ k) _).bind fun _ _ => (Fails.mapRes (fun r => Fails.mapRes (fun k => Fails.umul.bind fun _ _ =>
      Fails.uadd.bind fun _ _ => hentry _ _ _) _) _).bind fun _ _ => .ok _

end Parts

section Keys
variable {P Q T G1 : Type} (q : Nat) (toP : P → Bytes) (ofP : Bytes → Option P) (toQ : Q → Bytes) (ofQ : Bytes → Option Q) (toT : T → Bytes)
  (ofT : Bytes → Option T) (t : Target) (bm : BilinearMap (ZMod q) G1 P Q T)

theorem short_point {name : String} {size : Nat} (k : Nat) {a b : String}
    (ha : "invalid size: " ++ ("Invalid " ++ name ++ " element (size ") = a)
    (hb : ", compressed expected size at least: " ++ toString size ++ " bytes long), unable to deserialize this " ++ name ++ " element." = b) :
    "invalid size: " ++ ("Invalid " ++ name ++ " element (size " ++ toString k ++ ", compressed expected size at least: " ++ toString size ++
      " bytes long), unable to deserialize this " ++ name ++ " element.") = a ++ toString k ++ b := by
  rw [← ha, ← hb]
  simp only [String.append_assoc]

theorem codecs_says : (blsCodecs q toP ofP toQ ofQ toT ofT).scalar.Says x ∧ (blsCodecs q toP ofP toQ ofQ toT ofT).g2.Says x ∧
    (blsCodecs q toP ofP toQ ofQ toT ofT).g3.Says x ∧ (blsCodecs q toP ofP toQ ofQ toT ofT).gt.Says x := by
  refine ⟨scalar_says q, point_says (by decide +kernel) fun k => ?_, point_says (by decide +kernel) fun k => ?_, point_says (by decide +kernel) fun k => ?_⟩
  · rw [short_point k (a := "invalid size: Invalid G1 element (size ")
      (b := ", compressed expected size at least: 48 bytes long), unable to deserialize this G1 element.") (by decide +kernel) (by decide +kernel), shortTexts]
    simp only [List.mem_cons, true_or, or_true]
  · rw [short_point k (a := "invalid size: Invalid G2 element (size ")
      (b := ", compressed expected size at least: 96 bytes long), unable to deserialize this G2 element.") (by decide +kernel) (by decide +kernel), shortTexts]
    simp only [List.mem_cons, true_or, or_true]
  · rw [short_point k (a := "invalid size: Invalid Gt element (size ")
      (b := ", compressed expected size at least: 288 bytes long), unable to deserialize this Gt element.") (by decide +kernel) (by decide +kernel), shortTexts]
    simp only [List.mem_cons, true_or, or_true]

/-- **C99.** The error of a master private key which cannot be read tells nothing about its bytes but how many there are at some place. -/
theorem C99_private_key (b : Bytes) (y : FormatErr) (h : (privKeyCodec t (blsCodecs q toP ofP toQ ofQ toT ofT)).dec b = .err y) :
    SaysOfBytes b.length (y.text x) := by
  obtain ⟨h1, h2, h3, h4⟩ := codecs_says (x := x) q toP ofP toQ ofQ toT ofT
  refine Fails.bind (P := Says x b.length) (vec_says (t := t) h1 b) (fun _ _ => Fails.sliceFrom.bind fun s hs =>
    (dec_says h1 (sliceFrom_length hs)).bind fun _ _ => .ok _) y h

/-- **C99** for a master public key. -/
theorem C99_public_key (b : Bytes) (y : FormatErr) (h : (pubKeyCodec t (blsCodecs q toP ofP toQ ofQ toT ofT)).dec b = .err y) :
    SaysOfBytes b.length (y.text x) := by
  obtain ⟨h1, h2, h3, h4⟩ := codecs_says (x := x) q toP ofP toQ ofQ toT ofT
  refine Fails.bind (P := Says x b.length) (vec_says (t := t) h2 b) (fun _ _ => Fails.sliceFrom.bind fun s hs =>
    (dec_says h4 (sliceFrom_length hs)).bind fun _ _ => .ok _) y h

/-- **C99** for a delegation key. -/
theorem C99_delegation_key (b : Bytes) (y : FormatErr) (h : (delKeyCodec t (blsCodecs q toP ofP toQ ofQ toT ofT)).dec b = .err y) :
    SaysOfBytes b.length (y.text x) := by
  obtain ⟨h1, h2, h3, h4⟩ := codecs_says (x := x) q toP ofP toQ ofQ toT ofT
  refine Fails.bind (P := Says x b.length) (vec_says (t := t) h3 b) (fun _ _ => .ok _) y h

/-- **C99** for a user key. -/
theorem C99_user_key (b : Bytes) (y : FormatErr) (h : (userKeyCodec t (blsCodecs q toP ofP toQ ofQ toT ofT) bm).dec b = .err y) :
    SaysOfBytes b.length (y.text x) := by
  obtain ⟨h1, h2, h3, h4⟩ := codecs_says (x := x) q toP ofP toQ ofQ toT ofT
  refine Fails.ite (P := Says x b.length) (fun _ => .err (Or.inl ?_)) (fun _ => Fails.bind (vec_says (t := t) h3 b) fun _ _ => Fails.sliceFrom.bind fun s hs =>
    (dec_says (msp_says (t := t) h1) (sliceFrom_length hs)).bind fun _ _ => .ok _) y h
  change "Empty private key" ∈ plainTexts
  decide +kernel

theorem cipherText_says : (cipherTextCodec t (blsCodecs q toP ofP toQ ofQ toT ofT)).Says x := fun b => by
  obtain ⟨h1, h2, h3, h4⟩ := codecs_says (x := x) q toP ofP toQ ofQ toT ofT
  exact Fails.bind (vec_says (t := t) u32_says b) fun _ _ => Fails.sliceFrom.bind fun s hs =>
    (dec_says (vec_says (t := t) h2) (sliceFrom_length hs)).bind fun _ _ => Fails.sliceFrom.bind fun s' hs' =>
    (dec_says h4 (sliceFrom_length hs')).bind fun _ _ => .ok _

/-- **C99** for a ciphertext. -/
theorem C99_ciphertext (b : Bytes) (y : FormatErr) (h : (cipherTextCodec t (blsCodecs q toP ofP toQ ofQ toT ofT)).dec b = .err y) :
    SaysOfBytes b.length (y.text x) := cipherText_says q toP ofP toQ ofQ toT ofT t b y h

end Keys

section Decrypt
variable {K G1 G2 G3 Gt : Type} [Field K] [DecidableEq K] {P : FormatErr → Prop}

theorem entry_fails {m : List (List K)} {c r : Nat} : Fails P (entry m c r) := Fails.idx.bind fun _ _ => Fails.idx

theorem findPivot_fails {m : List (List K)} {c : Nat} : ∀ l, Fails P (findPivot m c l)
  | [] => .ok _
  | _ :: l => entry_fails.bind fun _ _ => Fails.ite (fun _ => .ok _) fun _ => findPivot_fails l

theorem mapSkip_fails {α : Type} {f : α → Out α} (h : ∀ a, Fails P (f a)) : ∀ (k : Nat) (l : List α), Fails P (mapSkip f k l)
  | 0, l => Fails.mapRes h l
  | _ + 1, [] => .ok _
  | k + 1, _ :: l => (mapSkip_fails h k l).bind fun _ _ => .ok _

theorem foldRes_fails {α β : Type} {f : β → α → Out β} (h : ∀ b a, Fails P (f b a)) : ∀ (l : List α) (b : β), Fails P (foldRes f b l)
  | [], _ => .ok _
  | a :: l, b => (h b a).bind fun b' _ => foldRes_fails h l b'

theorem elimRow_fails {c r0 : Nat} (m : List (List K)) (r : Nat) : Fails P (elimRow c r0 m r) :=
  entry_fails.bind fun _ _ => Fails.ite (fun _ => mapSkip_fails (fun _ => Fails.idx.bind fun _ _ => Fails.idx.bind fun _ _ => .ok _) _ _) fun _ => .ok _

theorem sdiv_fails {a b : K} : Fails P (sdiv a b) := by
  unfold sdiv
  split
  · exact .panic
  · exact .ok _

theorem pivotStep_fails {m : List (List K)} {nbRow c r0 row : Nat} : Fails P (pivotStep m nbRow c r0 row) := by
  refine (Fails.mapRes (fun _ => Fails.idx.bind fun _ _ => Fails.idx.bind fun _ _ => .ok _) _).bind fun _ _ => Fails.bind ?_ fun _ _ =>
    (foldRes_fails elimRow_fails _ _).bind fun _ _ => foldRes_fails elimRow_fails _ _
  exact entry_fails.bind fun _ _ => Fails.ite (fun _ => Fails.idx.bind fun _ _ =>
    mapSkip_fails (fun _ => Fails.idx.bind fun _ _ => sdiv_fails.bind fun _ _ => .ok _) _ _) fun _ => .ok _

theorem gaussLoop_fails {nbRow : Nat} : ∀ (k : Nat) (m : List (List K)) (r c l : Nat), Fails P (gaussLoop nbRow k m r c l)
  | 0, _, _, _, _ => .ok _
  | k + 1, m, r, c, l => by
    unfold gaussLoop
    refine Fails.ite (fun _ => .ok _) fun _ => (findPivot_fails _).bind fun row _ => ?_
    cases row with
    | some row => exact pivotStep_fails.bind fun _ _ => gaussLoop_fails k _ _ _ _
    | none => exact gaussLoop_fails k _ _ _ _

theorem skipZeros_fails {m : List (List K)} {i : Nat} : ∀ (k cur : Nat) (sol : List K), Fails P (skipZeros m i k cur sol)
  | 0, _, _ => .panic
  | k + 1, _, _ => entry_fails.bind fun _ _ => Fails.ite (fun _ => Fails.ite (fun _ => .ok _) fun _ => skipZeros_fails k _ _) fun _ => .ok _

theorem unwrap_fails {α : Type} {o : Option α} : Fails P (Res.unwrap o) := by
  cases o
  · exact .panic
  · exact .ok _

theorem extractSol_fails {m : List (List K)} {nbCol : Nat} : ∀ (l : List Nat) (cur : Nat) (sol : List K), Fails P (extractSol m nbCol l cur sol)
  | [], _, _ => .ok _
  | i :: l, cur, sol => by
    unfold extractSol
    refine (skipZeros_fails _ _ _).bind fun r _ => ?_
    obtain ⟨c, sol⟩ := r
    cases c with
    | none => exact .ok _
    | some c =>
      exact entry_fails.bind fun _ _ => Fails.ite (fun _ => unwrap_fails.bind fun _ _ => Fails.idx.bind fun _ _ =>
        Fails.ite (fun _ => .ok _) fun _ => extractSol_fails l _ _) fun _ => .panic

theorem spanCoefs_fails (h : P (.internalOperation "empty input matrix")) (m : List (List K)) : Fails P (spanCoefs m) := by
  unfold spanCoefs
  split
  · exact .err h
  · exact Fails.ite (fun _ => .err h) fun _ => (gaussLoop_fails _ _ _ _ _).bind fun _ _ => Fails.ite (fun _ => .ok _) fun _ =>
      (extractSol_fails _ _ _).bind fun _ _ => .ok _

theorem selectRows_fails {key : DecryptionKey K G1 G3} {enc : CipherText G2 Gt} : ∀ (l : List UInt32) (i : Nat), Fails P (selectRows key enc l i)
  | [], _ => .ok _
  | a :: l, i => by
    unfold selectRows
    split
    · exact Fails.bind Fails.idx fun _ _ => Fails.idx.bind fun _ _ => Fails.idx.bind fun _ _ => (selectRows_fails l _).bind fun _ _ => .ok _
    · exact selectRows_fails l _

theorem keepNonZero_fails {α : Type} {a : List K} : ∀ (l : List α) (i : Nat), Fails P (keepNonZero a l i)
  | [], _ => .ok _
  | _ :: l, _ => Fails.idx.bind fun _ _ => (keepNonZero_fails l _).bind fun _ _ => Fails.ite (fun _ => .ok _) fun _ => .ok _

theorem decrypt_fails (h : P (.internalOperation "empty input matrix")) (bm : BilinearMap K G1 G2 G3 Gt) (enc : CipherText G2 Gt)
    (key : DecryptionKey K G1 G3) : Fails P (decrypt bm enc key) := by
  refine (selectRows_fails _ _).bind fun _ _ => (spanCoefs_fails h _).bind fun o _ => ?_
  cases o with
  | none => exact .ok _
  | some a => exact (keepNonZero_fails _ _).bind fun _ _ => (keepNonZero_fails _ _).bind fun _ _ => .ok _

end Decrypt

section Headers
variable {P Q T G1 Key Nonce : Type} (q : Nat) [Fact q.Prime] (toP : P → Bytes) (ofP : Bytes → Option P) (toQ : Q → Bytes) (ofQ : Bytes → Option Q)
  (toT : T → Bytes) (ofT : Bytes → Option T) (t : Target) (bm : BilinearMap (ZMod q) G1 P Q T) (e : External Key Nonce)

/-- **C99.** The error of a header which is not opened, whatever the key, tells nothing but sizes, or is an error of the symmetric library. -/
theorem C99_header (key : DecryptionKey (ZMod q) G1 Q) (b : Bytes) (y : FormatErr)
    (h : decryptHybridHeader e bm (blsCodecs q toP ofP toQ ofQ toT ofT) t key b = .err y) :
    SaysOfHeader (x.other (some .cryptoError)) b.length (y.text x) ∨ e.Reports y := by
  have hc : ∀ y, y = FormatErr.cryptoError → SaysOfHeader (x.other (some .cryptoError)) b.length (y.text x) ∨ e.Reports y := by
    rintro _ rfl
    exact Or.inl (Or.inr (Or.inr (Or.inr (Or.inr rfl))))
  have hscan : ∀ (b' : Bytes) n, Fails (fun y => SaysOfHeader (x.other (some .cryptoError)) b.length (y.text x) ∨ e.Reports y) (scanNext b' n) := by
    intro b' n
    exact Fails.ite (fun _ => .ok _) fun _ => .err (hc _ rfl)
  have hu32 : ∀ (b' : Bytes), Fails (fun y => SaysOfHeader (x.other (some .cryptoError)) b.length (y.text x) ∨ e.Reports y) (scanU32 b') :=
    fun b' => (hscan b' 4).bind fun _ _ => .ok _
  refine Fails.ite (P := fun y => SaysOfHeader (x.other (some .cryptoError)) b.length (y.text x) ∨ e.Reports y)
    (fun _ => .err (Or.inl (Or.inr (Or.inl rfl)))) (fun _ => (hu32 b).bind fun r hr => (hscan _ _).bind fun r' hr' => Fails.bind ?_ fun kb _ =>
    Fails.bind (fun y hy => Or.inr (.key _ hy)) fun k _ => Fails.bind (Fails.ite (fun _ => .ok _) fun _ => (hscan _ _).bind fun _ _ =>
    Fails.bind (fun y hy => Or.inr (.nonce _ hy)) fun _ _ => (hu32 _).bind fun _ _ => (hscan _ _).bind fun _ _ =>
    Fails.bind (fun y hy => Or.inr (.decrypt _ _ _ hy)) fun mb _ => ?_) fun _ _ => .ok _) y h
  · have hl : r'.1.length ≤ b.length := by
      have h1 : r.2.length ≤ b.length := by
        unfold scanU32 scanNext at hr
        split at hr
        · simp only [Res.ok_bind, Res.ok.injEq] at hr
          subst hr
          simp
        · simp at hr
      unfold scanNext at hr'
      split at hr'
      · simp only [Res.ok.injEq] at hr'
        subst hr'
        simp; omega
      · simp at hr'
    refine Fails.bind ((dec_says (x := x) (cipherText_says q toP ofP toQ ofQ toT ofT t) hl).mono fun y hy => Or.inl (Or.inl hy)) fun ct _ =>
      Fails.bind (decrypt_fails (Or.inl (Or.inr (Or.inr (Or.inl rfl)))) bm ct key) fun o _ => Fails.bind ?_ fun _ _ => Fails.bind ?_ fun _ _ => .ok _
    · cases o with
      | none => exact .err (Or.inl (Or.inr (Or.inr (Or.inr (Or.inl rfl)))))
      | some _ => exact .ok _
    · exact .ok _
  · cases hm : e.metaDec mb with
    | ok m => exact .ok _
    | err z => exact .err (hc _ rfl)
    | panic => exact .panic

/-- **C99.** The error of a block which is not opened tells nothing but sizes, or is an error of the symmetric library. -/
theorem C99_block (max : Nat) (k : Key) (uid : Bytes) (i : Nat) (b : Bytes) (y : FormatErr) (h : decryptHybridBlock e max k uid i b = .err y) :
    SaysOfBlock (max + e.overhead) b.length (y.text x) ∨ e.Reports y := by
  refine Fails.ite (P := fun y => SaysOfBlock (max + e.overhead) b.length (y.text x) ∨ e.Reports y) (fun _ => .err (Or.inl (Or.inl rfl)))
    (fun _ => Fails.ite (fun _ => .err (Or.inl (Or.inr ?_))) fun _ y hy => Or.inr (.block _ _ _ _ _ hy)) y h
  change "invalid size: " ++ _ = _
  simp only [← String.append_assoc]
  rfl

end Headers

/-! ### The C interface -/

/-- The errors which a part of a foreign function may record. -/
def Records {E D α : Type} (P : FfiError → Prop) (p : Prog E D α) : Prop := ∀ s, (p s).2.err = s.err ∨ ∃ y, (p s).2.err = some y ∧ P y

namespace Records
variable {E D α β : Type} {P : FfiError → Prop}

theorem keeps {p : Prog E D α} (h : ∀ s, (p s).2.err = s.err) : Records P p := fun s => Or.inl (h s)
theorem pure (a : α) : Records P (pure a : Prog E D α) := keeps fun _ => rfl

theorem bind {p : Prog E D α} {f : α → Prog E D β} (h : Records P p) (hf : ∀ a, (∃ s, (p s).1 = .next a) → Records P (f a)) : Records P (p >>= f) := by
  intro s
  rw [Prog.bind_def]
  unfold Prog.bind
  rcases hp : p s with ⟨fl, s'⟩
  have h1 := h s
  rw [hp] at h1
  cases fl with
  | next a =>
    rcases hf a ⟨s, by rw [hp]⟩ s' with h2 | h2
    · dsimp only at *; rw [h2]; exact h1
    · exact Or.inr h2
  | ret c => exact h1
  | panic => exact h1
  | ub => exact h1

theorem ite {c : Prop} [Decidable c] {p p' : Prog E D α} (h : c → Records P p) (h' : ¬ c → Records P p') : Records P (if c then p else p') := by
  split
  · exact h ‹_›
  · exact h' ‹_›

theorem bail {msg : Bytes} (h : P (.generic msg)) : Records P (Prog.bail msg : Prog E D α) := fun _ => Or.inr ⟨_, rfl, h⟩

theorem notNull {p : Option Bytes} {msg : String} (h : P (.nullPointer (utf8 msg))) : Records P (Prog.notNull p msg : Prog E D Unit) :=
  ite (fun _ _ => Or.inr ⟨_, rfl, h⟩) fun _ => pure ()

theorem readLen {k : Slot} : Records P (Prog.readLen k : Prog E D Int32) := keeps fun s => by unfold Prog.readLen; split <;> rfl
theorem outPtr {k : Slot} : Records P (Prog.outPtr k : Prog E D _) := keeps fun _ => rfl
theorem writeLen {k : Slot} {n : Int32} : Records P (Prog.writeLen k n : Prog E D Unit) := keeps fun s => by unfold Prog.writeLen; split <;> rfl
theorem copy {k : Slot} {b : Bytes} : Records P (Prog.copy k b : Prog E D Unit) := keeps fun s => by
  unfold Prog.copy; split
  · split <;> rfl
  · rfl

theorem checkOut {k : Slot} {null empty : String} (h : P (.nullPointer (utf8 null))) (h' : P (.generic (utf8 empty))) :
    Records P (Abe.checkOut k null empty : Prog E D Unit) :=
  outPtr.bind fun _ _ => (notNull h).bind fun _ _ => readLen.bind fun _ _ => ite (fun _ => bail h') fun _ => pure ()

theorem checkIn {b : InBuf} {null empty : String} (h : P (.nullPointer (utf8 null))) (h' : P (.generic (utf8 empty))) :
    Records P (Abe.checkIn b null empty : Prog E D Unit) :=
  (notNull h).bind fun _ _ => ite (fun _ => bail h') fun _ => pure ()

theorem readIn {b : InBuf} : Records P (Prog.readIn b : Prog E D Bytes) := by
  unfold Prog.readIn
  split
  · exact ite (fun _ => pure _) fun _ => keeps fun _ => rfl
  · exact keeps fun _ => rfl

theorem writeOut {t : Target} {k : Slot} {what : Nat → Int32 → Bytes} {b : Bytes} (h : ∀ n l, P (.generic (what n l))) :
    Records P (Abe.writeOut t k what b : Prog E D Unit) :=
  readLen.bind fun _ _ => writeLen.bind fun _ _ => ite (fun _ => bail (h _ _)) fun _ => copy

theorem ifExpected {k : Slot} {p : Prog E D Unit} (h : Records P p) : Records P (Abe.ifExpected k p) :=
  outPtr.bind fun _ _ => ite (fun _ => pure ()) fun _ => readLen.bind fun _ _ => ite (fun _ => h) fun _ => pure ()

theorem unwrap {msg : FormatErr → Bytes} {r : Out α} (h : Fails (fun y => P (.generic (msg y))) r) : Records P (Prog.unwrap msg r : Prog E D α) := by
  cases r with
  | ok a => exact pure a
  | err y => exact bail (h y rfl)
  | panic => exact keeps fun _ => rfl

end Records

theorem readIn_length {E D : Type} {b : InBuf} {a : Bytes} (h : ∃ s, ((Prog.readIn b : Prog E D Bytes) s).1 = .next a) : a.length = b.len.toInt.toNat := by
  obtain ⟨s, h⟩ := h
  obtain ⟨m, l⟩ := b
  cases m with
  | none => cases h
  | some m =>
    change ((if 0 ≤ l.toInt ∧ l.toInt.toNat ≤ m.length then pure (m.take l.toInt.toNat) else Prog.undefined : Prog E D Bytes) s).1 = _ at h
    by_cases hl : 0 ≤ l.toInt ∧ l.toInt.toNat ≤ m.length
    · rw [if_pos hl] at h
      have : List.take l.toInt.toNat m = a := Flow.next.inj h
      rw [← this, List.length_take]
      exact Nat.min_eq_left hl.2
    · rw [if_neg hl] at h
      cases h

section Interface
variable {P Q T G1 Key Nonce : Type} (q : Nat) [Fact q.Prime] (toP : P → Bytes) (ofP : Bytes → Option P) (toQ : Q → Bytes) (ofQ : Bytes → Option Q)
  (toT : T → Bytes) (ofT : Bytes → Option T) (lib : FfiLib (ZMod q) G1 P Q T Key Nonce) (hcs : lib.cs = blsCodecs q toP ofP toQ ofQ toT ofT)
include hcs

theorem finish_records (key : DecryptionKey (ZMod q) G1 Q) (b : Bytes) (m : Nat) :
    Records (SaysOfCall lib.e lib.texts b.length m) (finishDecryptHeader lib key b) := by
  refine (Records.unwrap fun y hy => ?_).bind fun h _ => (Records.writeOut fun _ _ => .small _ (by simp) _).bind fun _ _ =>
    (Records.ifExpected (Records.writeOut fun _ _ => .small _ (by simp) _)).bind fun _ _ => (Records.ifExpected ?_).bind fun _ _ => .pure _
  · rw [hcs] at hy
    rcases C99_header (x := lib.texts) q toP ofP toQ ofQ toT ofT lib.t lib.bm lib.e key b y hy with h | h
    · exact .header _ h
    · exact .library y h
  · split
    · exact Records.writeOut fun _ _ => .small _ (by simp) _
    · exact Records.writeLen

/-- **C99**, C interface: after `h_aes_decrypt_header` the last error is the one before the call, or it says what a message may say. -/
theorem C99_ffi_header (header key : InBuf) (s : FState (EncryptionCache P T) (DecryptionKey (ZMod q) G1 Q)) :
    ((hDecryptHeader lib header key).run s).2.err = s.err ∨
    ∃ y, ((hDecryptHeader lib header key).run s).2.err = some y ∧ SaysOfCall lib.e lib.texts header.len.toInt.toNat key.len.toInt.toNat y := by
  rw [Prog.run_enc]
  refine ((Records.checkOut (.null _ (by simp)) (.empty _ (by simp))).bind fun _ _ => (Records.checkIn (.null _ (by simp)) (.empty _ (by simp))).bind fun _ _ =>
    (Records.checkIn (.null _ (by simp)) (.empty _ (by simp))).bind fun _ _ => Records.readIn.bind fun b hb => Records.readIn.bind fun kb hkb =>
    (Records.unwrap fun y hy => ?_).bind fun k _ => ?_) s
  · rw [hcs] at hy
    rw [← readIn_length hkb]
    exact .key _ (C99_user_key (x := lib.texts) q toP ofP toQ ofQ toT ofT lib.t lib.bm kb y hy)
  · rw [← readIn_length hb]
    exact finish_records q toP ofP toQ ofQ toT ofT lib hcs k b _

/-- **C99**, C interface: the same for `h_aes_decrypt_header_using_cache`. -/
theorem C99_ffi_header_using_cache (header : InBuf) (handle : Int32) (s : FState (EncryptionCache P T) (DecryptionKey (ZMod q) G1 Q)) :
    ((hDecryptHeaderUsingCache lib header handle).run s).2.err = s.err ∨
    ∃ y, ((hDecryptHeaderUsingCache lib header handle).run s).2.err = some y ∧ SaysOfCall lib.e lib.texts header.len.toInt.toNat 0 y := by
  rw [Prog.run_enc]
  refine ((Records.checkOut (.null _ (by simp)) (.empty _ (by simp))).bind fun _ _ => (Records.checkIn (.null _ (by simp)) (.empty _ (by simp))).bind fun _ _ =>
    Records.readIn.bind fun b hb => Records.bind (Records.keeps fun _ => rfl) fun c _ => ?_) s
  cases c with
  | none => exact Records.bail (.unknown handle)
  | some k =>
    rw [← readIn_length hb]
    exact finish_records q toP ofP toQ ofQ toT ofT lib hcs k b _

/-- **C99**, C interface: the same for `h_aes_create_decryption_cache`. -/
theorem C99_ffi_decryption_cache (key : InBuf) (s : FState (EncryptionCache P T) (DecryptionKey (ZMod q) G1 Q)) :
    ((hCreateDecryptionCache lib key).run s).2.err = s.err ∨
    ∃ y, ((hCreateDecryptionCache lib key).run s).2.err = some y ∧ SaysOfCache (fun y => lib.debug (some y)) lib.texts key.len.toInt.toNat y := by
  rw [Prog.run_enc]
  refine (Records.bind ((Records.checkIn .null .empty).bind fun _ _ => Records.readIn.bind fun kb hkb => Records.unwrap fun y hy => ?_) fun _ _ =>
    (Records.keeps fun _ => rfl).bind fun _ _ => (Records.keeps fun _ => rfl).bind fun _ _ => Records.keeps fun s => ?_) s
  · rw [hcs] at hy
    rw [← readIn_length hkb]
    exact .key y (C99_user_key (x := lib.texts) q toP ofP toQ ofQ toT ofT lib.t lib.bm kb y hy)
  · unfold writeHandle
    split <;> rfl

end Interface

section Blocks
variable {K G1 G2 G3 Gt Key Nonce : Type} [Field K] [DecidableEq K] (lib : FfiLib K G1 G2 G3 Gt Key Nonce)

theorem Records.writeBlock {E D : Type} {P : FfiError → Prop} {t : Target} {what : Nat → Bytes} {b : Bytes} (h : ∀ n, P (.generic (what n))) :
    Records P (Abe.writeBlock t what b : Prog E D Unit) :=
  readLen.bind fun _ _ => ite (fun _ => bail (h _)) fun _ => copy.bind fun _ _ => writeLen

theorem readBlockArgs_records {Data : String → Prop} {Library : FormatErr → Prop} (hl : ∀ b y, lib.e.keyDec b = .err y → Library y) (a : BlockArgs) :
    Records (SaysOfBlockCall Data Library lib.texts) (readBlockArgs lib a) :=
  (Records.checkIn (.null _ (by simp)) (.empty _ (by simp))).bind fun _ _ => Records.readIn.bind fun _ _ =>
    (Records.ite (fun _ => Records.readIn) fun _ => .pure _).bind fun _ _ => (Records.checkIn (.null _ (by simp)) (.empty _ (by simp))).bind fun _ _ =>
    Records.readIn.bind fun _ _ => (Records.unwrap fun y hy => .library y (hl _ y hy)).bind fun _ _ => .pure _

theorem next_bind {E D α β : Type} {p : Prog E D α} {f : α → Prog E D β} {b : β} (h : ∃ s, ((p >>= f) s).1 = .next b) :
    ∃ a, (∃ s, (p s).1 = .next a) ∧ ∃ s, (f a s).1 = .next b := by
  obtain ⟨s, h⟩ := h
  rw [Prog.bind_def] at h
  unfold Prog.bind at h
  rcases hp : p s with ⟨fl, s'⟩
  rw [hp] at h
  cases fl with
  | next a => exact ⟨a, ⟨s, by rw [hp]⟩, s', h⟩
  | ret c => cases h
  | panic => cases h
  | ub => cases h

theorem readBlockArgs_length {a : BlockArgs} {r : Key × Bytes × Bytes} (h : ∃ s, (readBlockArgs lib a s).1 = .next r) :
    r.2.2.length = a.data.len.toInt.toNat := by
  obtain ⟨_, _, h⟩ := next_bind h
  obtain ⟨_, _, h⟩ := next_bind h
  obtain ⟨_, _, h⟩ := next_bind h
  obtain ⟨_, _, h⟩ := next_bind h
  obtain ⟨b, hb, h⟩ := next_bind h
  obtain ⟨_, _, s, h⟩ := next_bind h
  rw [← Flow.next.inj h]
  exact readIn_length hb

/-- **C99**, C interface: after `h_aes_decrypt_block` the last error is the one before the call, or it is on the pointers and sizes, or is an error of the
symmetric library. -/
theorem C99_ffi_decrypt_block (a : BlockArgs) (s : FState (EncryptionCache G2 Gt) (DecryptionKey K G1 G3)) :
    ((hDecryptBlock lib a).run s).2.err = s.err ∨
    ∃ y, ((hDecryptBlock lib a).run s).2.err = some y ∧
      SaysOfBlockCall (SaysOfBlock (2 ^ 30 + lib.e.overhead) a.data.len.toInt.toNat) lib.e.Reports lib.texts y := by
  rw [Prog.run_enc]
  refine ((Records.checkOut (.null _ (by simp)) (.empty _ (by simp))).bind fun _ _ => (readBlockArgs_records lib (fun b _ hy => .key b hy) a).bind fun r hr =>
    (Records.unwrap fun y hy => ?_).bind fun _ _ => (Records.writeBlock fun n => .small _ (by simp) n).bind fun _ _ => .pure _) s
  rw [← readBlockArgs_length lib hr]
  rcases C99_block (x := lib.texts) lib.e _ r.1 r.2.1 _ r.2.2 y hy with h | h
  · exact .data _ h
  · exact .library y h

/-- **C99**, C interface: the same for `h_aes_encrypt_block`, the errors of the symmetric library being those of reading a key and of encrypting a block. -/
theorem C99_ffi_encrypt_block (a : BlockArgs) (nonce : Nonce) (s : FState (EncryptionCache G2 Gt) (DecryptionKey K G1 G3)) :
    ((hEncryptBlock lib a nonce).run s).2.err = s.err ∨
    ∃ y, ((hEncryptBlock lib a nonce).run s).2.err = some y ∧
      SaysOfBlockCall (SaysOfClearText (2 ^ 30) a.data.len.toInt.toNat)
        (fun y => (∃ b, lib.e.keyDec b = .err y) ∨ ∃ k uid i b, lib.e.blockEnc (2 ^ 30) k uid i b nonce = .err y) lib.texts y := by
  rw [Prog.run_enc]
  refine ((Records.checkOut (.null _ (by simp)) (.empty _ (by simp))).bind fun _ _ => (readBlockArgs_records lib (fun b _ hy => Or.inl ⟨b, hy⟩) a).bind fun r hr =>
    (Records.unwrap (Fails.ite (fun _ => .err (.data _ (Or.inl rfl))) fun _ => Fails.ite (fun _ => .err (.data _ (Or.inr ?_))) fun _ y hy =>
      .library y (Or.inr ⟨_, _, _, _, hy⟩))).bind fun _ _ => (Records.writeBlock fun n => .small _ (by simp) n).bind fun _ _ => .pure _) s
  rw [← readBlockArgs_length lib hr]
  change "invalid size: " ++ _ = _
  simp only [← String.append_assoc]
  rfl

end Blocks

/-! ### Concrete cases -/

/-- The error of an outcome. -/
def Demo.failure {α : Type} : Out α → Option FormatErr
  | .err y => some y
  | _ => none

/-- A master private key of which the last 12 bytes are missing, a user key with a changed count, no key at all. -/
example : Demo.failure ((privKeyCodec .debug64 Demo.codecs).dec (Demo.privB.take 280)) = some (.invalidSize
      "Invalid scalar element (size 20, expected size at least: 32 bytes long), unable to deserialize this scalar element.") ∧
    Demo.failure ((userKeyCodec .debug64 Demo.codecs (bls Demo.curveF)).dec (255 :: Demo.userB.drop 1)) = some (.deserialization "deserializing element failed. Data altered?") ∧
    Demo.failure ((userKeyCodec .debug64 Demo.codecs (bls Demo.curveF)).dec []) = some .emptyPrivateKey := by decide +kernel

/-- A header of three bytes, and one whose first number is too large; an empty block. -/
example (key : DecryptionKey Demo.F Demo.F Demo.F) : decryptHybridHeader Demo.symmetric (bls Demo.curveF) Demo.codecs .debug64 key [0, 0, 1] = .err (.invalidHeaderSize 3) ∧
    decryptHybridHeader Demo.symmetric (bls Demo.curveF) Demo.codecs .debug64 key [0, 0, 1, 0] = .err .cryptoError ∧
    decryptHybridBlock Demo.symmetric 100 ⟨List.replicate 32 7, rfl⟩ [1] 0 (List.replicate 129 5) =
      .err (.invalidSize "The encrypted data to decrypt is too large: 129 bytes, max size: 128 ") := ⟨rfl, rfl, by decide +kernel⟩

/-- The codecs and the library of the examples are as in the theorems. -/
example : Demo.ffi.cs = blsCodecs 11 (fun x : Demo.F => leBytes 48 x.val) (fun b => if ofLe b < 11 then some (ofLe b : Demo.F) else none)
    (fun x : Demo.F => leBytes 96 x.val) (fun b => if ofLe b < 11 then some (ofLe b : Demo.F) else none)
    (fun x : Demo.F => leBytes 288 x.val) (fun b => if ofLe b < 11 then some (ofLe b : Demo.F) else none) := rfl

/-- A call with a header of three bytes records the text on its size. -/
example : ((hDecryptHeader Demo.ffi (Demo.input [0, 0, 1]) (Demo.input Demo.userB)).run (Demo.state fun _ => Demo.buf 32 32)).2.err =
    some (.generic (utf8 "Header length must be at least 4 bytes. Found 3")) := by decide +kernel

/-- The texts recorded for a user key of no bytes, for a block without a key, and for a buffer too small for a block. -/
example : ((hCreateDecryptionCache Demo.ffi (Demo.input [])).run (Demo.state fun _ => Demo.buf 32 32)).2.err =
      some (.generic (utf8 "The user decryption key should not be empty")) ∧
    ((hDecryptBlock Demo.ffi ⟨⟨none, 0⟩, Demo.input [1], 0, Demo.input (List.replicate 40 5)⟩).run (Demo.state fun _ => Demo.buf 32 32)).2.err =
      some (.nullPointer (utf8 "Symmetric Key pointer should not be null")) ∧
    ((hEncryptBlock Demo.ffi ⟨Demo.input (List.replicate 32 7), Demo.input [1], 0, Demo.input (List.replicate 40 5)⟩ Demo.nonce).run
      (Demo.state fun _ => Demo.buf 32 32)).2.err =
      some (.generic (utf8 "The pre-allocated encrypted bytes buffer is too small; need 68 bytes")) := by decide +kernel

end Abe

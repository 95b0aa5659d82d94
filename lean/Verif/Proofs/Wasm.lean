import Verif.Spec.Wasm
import Verif.Proofs.Py
import Verif.Proofs.FfiThreads

/-!
# The cache maps of the JavaScript interface
-/

namespace Abe

set_option linter.unusedSectionVars false
set_option linter.unnecessarySeqFocus false

theorem js_eq_ok {α : Type} {x : Out α} {a : α} : js x = .ok a ↔ x = .ok a := by
  cases x <;> simp [js, Res.mapErr]

theorem js_eq_panic {α : Type} {x : Out α} : js x = .panic ↔ x = .panic := by
  cases x <;> simp [js, Res.mapErr]

theorem js_eq_err {α : Type} {x : Out α} {z : JsErr} : js x = .err z ↔ x.isErr := by
  cases x <;> simp [js, Res.mapErr, Res.isErr]

@[simp] theorem js_ok {α : Type} (a : α) : js (.ok a : Out α) = .ok a := rfl
@[simp] theorem js_err {α : Type} (x : FormatErr) : js (.err x : Out α) = .err .error := rfl
@[simp] theorem js_panic {α : Type} : js (.panic : Out α) = .panic := rfl

theorem jsArg_eq_ok {α : Type} {x : Option α} {a : α} : jsArg x = .ok a ↔ x = some a := by
  cases x <;> simp [jsArg, Res.ofOption]

@[simp] theorem jsArg_some {α : Type} (a : α) : jsArg (some a) = .ok a := rfl
@[simp] theorem jsArg_none {α : Type} : jsArg (none : Option α) = .err .error := rfl

section
variable {ε α β : Type}
@[simp] theorem Res.map_ok (f : α → β) (a : α) : f <$> (.ok a : Res ε α) = .ok (f a) := rfl
@[simp] theorem Res.map_err (f : α → β) (e : ε) : f <$> (.err e : Res ε α) = .err e := rfl
@[simp] theorem Res.map_panic (f : α → β) : f <$> (.panic : Res ε α) = .panic := rfl
theorem Res.map_eq_ok {f : α → β} {x : Res ε α} {b : β} : f <$> x = .ok b ↔ ∃ a, x = .ok a ∧ f a = b := by
  cases x <;> simp
theorem Res.map_eq_panic {f : α → β} {x : Res ε α} : f <$> x = .panic ↔ x = .panic := by
  cases x <;> simp
end

/-! ### One cache map -/

/-- A call, as seen by one cache map. -/
inductive CAct (α : Type) where
  | create (cache : JsOut α)
  | destroy (h : Int32)
  | use (h : Int32) (f : α → JsOut Bytes)

def CAct.step {α : Type} (s : JsCaches α) : CAct α → JsOut JsVal × JsCaches α
  | .create c => (JsVal.handle <$> (s.create c).1, (s.create c).2)
  | .destroy h => ((fun _ => JsVal.unit) <$> (s.destroy h).1, (s.destroy h).2)
  | .use h f => (JsVal.bytes <$> (s.use h f).1, (s.use h f).2)

def CAct.run {α : Type} (s : JsCaches α) (L : List (CAct α)) : JsCaches α := L.foldl (fun s a => (a.step s).2) s

def CAct.isCreate {α : Type} : CAct α → Bool
  | .create _ => true
  | _ => false

section
variable {α : Type}

theorem JsCaches.write_ok {β : Type} {f : Registry α → Registry α} {b b' : β} {s : JsCaches α} (h : (s.write f b).1 = .ok b') :
    s.lock = .held 0 ∧ b' = b ∧ (s.write f b).2 = { s with reg := f s.reg } := by
  unfold JsCaches.write at h ⊢
  split
  · rename_i hl
    rw [if_pos hl] at h
    exact ⟨hl, (Res.ok.inj h).symm, rfl⟩
  · rename_i hl
    rw [if_neg hl] at h
    simp at h

theorem JsCaches.write_cases {β : Type} (f : Registry α → Registry α) (b : β) (s : JsCaches α) :
    (s.lock = .held 0 ∧ s.write f b = (.ok b, { s with reg := f s.reg })) ∨
    (s.lock ≠ .held 0 ∧ s.write f b = (.panic, { s with lock := .writing })) := by
  unfold JsCaches.write
  split
  · exact .inl ⟨‹_›, rfl⟩
  · exact .inr ⟨‹_›, rfl⟩

theorem JsCaches.read_reg {β : Type} (f : Registry α → JsOut β) (s : JsCaches α) : (s.read f).2.reg = s.reg := by
  unfold JsCaches.read
  split
  · rfl
  · split <;> rfl

/-- Reading keeps the lock free unless it panics. -/
theorem JsCaches.read_lock {β : Type} (f : Registry α → JsOut β) (s : JsCaches α) :
    (s.read f).1 ≠ .panic → (s.read f).2.lock = s.lock := by
  unfold JsCaches.read
  split
  · intro _; rfl
  · split
    · intro h; exact absurd rfl h
    · intro _; rfl

theorem JsCaches.read_of {β : Type} {f : Registry α → JsOut β} {s : JsCaches α} {n : Nat} (h : s.lock = .held n) :
    (s.read f).1 = f s.reg := by
  unfold JsCaches.read
  rw [h]
  dsimp only
  split
  · rename_i h; exact h.symm
  · rfl

/-- A panic while reading leaves the lock held for ever. -/
theorem JsCaches.read_panic {β : Type} {f : Registry α → JsOut β} {s : JsCaches α} (h : (s.read f).1 = .panic) :
    (s.read f).2.lock ≠ .held 0 := by
  unfold JsCaches.read at h ⊢
  split
  · rename_i hl; rw [hl]; simp
  · rename_i n hl
    rw [hl] at h
    dsimp only at h
    split at h
    · rename_i hf; simp
    · rename_i h' ; exact absurd h h'

theorem CAct.step_held {s : JsCaches α} (hs : s.lock ≠ .held 0) (a : CAct α) : (a.step s).2.lock ≠ .held 0 := by
  cases a with
  | create c =>
    show (s.create c).2.lock ≠ _
    unfold JsCaches.create
    split
    · exact hs
    · exact hs
    · rename_i c
      rcases JsCaches.write_cases (fun r => r.insert s.reg.next c) s.reg.next { s with reg := s.reg.fetchAdd.2 } with ⟨h, _⟩ | ⟨_, h⟩
      · exact absurd h hs
      · rw [h]; simp
  | destroy h =>
    show (s.destroy h).2.lock ≠ _
    unfold JsCaches.destroy
    rcases JsCaches.write_cases (fun r : Registry α => r.remove h) () s with ⟨h, _⟩ | ⟨_, h⟩
    · exact absurd h hs
    · rw [h]; simp
  | use h f =>
    show (s.use h f).2.lock ≠ _
    by_cases hp : (s.use h f).1 = .panic
    · exact JsCaches.read_panic hp
    · unfold JsCaches.use at hp ⊢
      rw [JsCaches.read_lock _ _ hp]
      exact hs

theorem CAct.run_held {s : JsCaches α} (hs : s.lock ≠ .held 0) (L : List (CAct α)) : (CAct.run s L).lock ≠ .held 0 := by
  induction L generalizing s with
  | nil => exact hs
  | cons a L ih => exact ih (a.step_held hs)

/-- A lock which is not free refuses creations and destructions. -/
theorem JsCaches.create_held {s : JsCaches α} (hs : s.lock ≠ .held 0) (c : JsOut α) (h : Int32) : (s.create c).1 ≠ .ok h := by
  unfold JsCaches.create
  split
  · simp
  · simp
  · intro hc
    exact hs (JsCaches.write_ok hc).1

theorem JsCaches.destroy_held {s : JsCaches α} (hs : s.lock ≠ .held 0) (h : Int32) : (s.destroy h).1 = .panic := by
  unfold JsCaches.destroy
  rcases JsCaches.write_cases (fun r : Registry α => r.remove h) () s with ⟨h', _⟩ | ⟨_, h'⟩
  · exact absurd h' hs
  · rw [h']

/-! ### Handles -/

theorem JsCaches.create_ok {s : JsCaches α} {c : JsOut α} {h : Int32} (hc : (s.create c).1 = .ok h) :
    ∃ a, c = .ok a ∧ s.lock = .held 0 ∧ h = s.reg.next ∧
      (s.create c).2 = ⟨(s.reg.fetchAdd.2).insert s.reg.next a, .held 0⟩ := by
  unfold JsCaches.create at hc ⊢
  split at hc
  · simp at hc
  · simp at hc
  · rename_i a
    obtain ⟨h1, h2, h3⟩ := JsCaches.write_ok hc
    refine ⟨a, rfl, h1, h2, ?_⟩
    rw [h3]
    simp only [JsCaches.mk.injEq, true_and]
    exact h1

/-- What a call does to the counter. -/
theorem CAct.step_next (s : JsCaches α) (a : CAct α) :
    (a.step s).2.reg.next = s.reg.next ∨ (a.isCreate = true ∧ (a.step s).2.reg.next = s.reg.next + 1) := by
  cases a with
  | create c =>
    show (s.create c).2.reg.next = _ ∨ _ ∧ (s.create c).2.reg.next = _
    unfold JsCaches.create
    split
    · exact .inl rfl
    · exact .inl rfl
    · rename_i c
      right
      rcases JsCaches.write_cases (fun r => r.insert s.reg.next c) s.reg.next { s with reg := s.reg.fetchAdd.2 } with ⟨_, h⟩ | ⟨_, h⟩ <;>
      · rw [h]; exact ⟨rfl, rfl⟩
  | destroy h =>
    left
    show (s.destroy h).2.reg.next = _
    unfold JsCaches.destroy
    rcases JsCaches.write_cases (fun r : Registry α => r.remove h) () s with ⟨_, h⟩ | ⟨_, h⟩ <;> rw [h] <;> rfl
  | use h f =>
    left
    show (s.use h f).2.reg.next = _
    unfold JsCaches.use
    rw [JsCaches.read_reg]

def CAct.creates (L : List (CAct α)) : Nat := (L.filter CAct.isCreate).length

theorem CAct.creates_cons (a : CAct α) (L : List (CAct α)) :
    CAct.creates (a :: L) = (if a.isCreate then 1 else 0) + CAct.creates L := by
  unfold CAct.creates
  rw [List.filter_cons]
  split <;> simp <;> omega

theorem CAct.step_next_ofNat {s : JsCaches α} {n : Nat} (hn : s.reg.next = Int32.ofNat n) (a : CAct α) :
    ∃ m, n ≤ m ∧ m ≤ n + (if a.isCreate then 1 else 0) ∧ (a.step s).2.reg.next = Int32.ofNat m := by
  rcases a.step_next s with h | ⟨h1, h⟩
  · exact ⟨n, le_refl _, by omega, h.trans hn⟩
  · refine ⟨n + 1, by omega, by rw [if_pos h1], ?_⟩
    rw [h, hn]
    exact int32_ofNat_add n 1

theorem CAct.run_next {s : JsCaches α} {n : Nat} (hn : s.reg.next = Int32.ofNat n) (L : List (CAct α)) :
    ∃ m, n ≤ m ∧ m ≤ n + CAct.creates L ∧ (CAct.run s L).reg.next = Int32.ofNat m := by
  induction L generalizing s n with
  | nil => exact ⟨n, le_refl _, by omega, hn⟩
  | cons a L ih =>
    obtain ⟨m, h1, h2, h3⟩ := a.step_next_ofNat hn
    obtain ⟨m', h4, h5, h6⟩ := ih h3
    rw [CAct.creates_cons]
    exact ⟨m', by omega, by omega, h6⟩

/-- What a call does to the map. -/
theorem CAct.step_get (s : JsCaches α) (a : CAct α) (h : Int32) :
    (a.step s).2.reg.get h = s.reg.get h ∨ (a = .destroy h ∧ (a.step s).2.reg.get h = none) ∨
      (a.isCreate = true ∧ (a.step s).1 = .ok (.handle h) ∧ h = s.reg.next) := by
  cases a with
  | create c =>
    by_cases hc : ∃ h', (s.create c).1 = .ok h'
    · obtain ⟨h', hc⟩ := hc
      obtain ⟨a, _, _, h3, h4⟩ := JsCaches.create_ok hc
      by_cases hh : h = h'
      · subst hh
        exact .inr (.inr ⟨rfl, by show JsVal.handle <$> (s.create c).1 = _; rw [hc]; rfl, h3⟩)
      · left
        show (s.create c).2.reg.get h = _
        rw [h4]
        show hget (hinsert _ _ _) h = _
        rw [hget_hinsert, if_neg (by rw [← h3]; exact hh)]
        rfl
    · left
      show (s.create c).2.reg.get h = _
      unfold JsCaches.create at hc ⊢
      split
      · rfl
      · rfl
      · rename_i a
        rcases JsCaches.write_cases (fun r => r.insert s.reg.next a) s.reg.next { s with reg := s.reg.fetchAdd.2 } with ⟨_, h'⟩ | ⟨_, h'⟩
        · exact absurd ⟨s.reg.next, by dsimp only; rw [h']⟩ hc
        · rw [h']; rfl
  | destroy h' =>
    have hg : (s.destroy h').2.reg.get h = s.reg.get h ∨ (h = h' ∧ (s.destroy h').2.reg.get h = none) := by
      unfold JsCaches.destroy
      rcases JsCaches.write_cases (fun r : Registry α => r.remove h') () s with ⟨_, e⟩ | ⟨_, e⟩
      · rw [e]
        show hget (hremove _ _) h = _ ∨ _ ∧ hget (hremove _ _) h = _
        rw [hget_hremove]
        by_cases hh : h = h'
        · right; exact ⟨hh, if_pos hh⟩
        · left; rw [if_neg hh]; rfl
      · left; rw [e]
    rcases hg with hg | ⟨rfl, hg⟩
    · exact .inl hg
    · exact .inr (.inl ⟨rfl, hg⟩)
  | use h' f =>
    left
    show (s.use h' f).2.reg.get h = _
    unfold JsCaches.use
    rw [JsCaches.read_reg]

/-- A handle drawn before keeps its cache until it is destroyed. -/
theorem CAct.run_get {s : JsCaches α} {i n : Nat} {c : α} (hi : i < n) (hn : s.reg.next = Int32.ofNat n) (L : List (CAct α))
    (hL : n + CAct.creates L ≤ 2 ^ 32) (hd : CAct.destroy (Int32.ofNat i) ∉ L) (hg : s.reg.get (Int32.ofNat i) = some c) :
    (CAct.run s L).reg.get (Int32.ofNat i) = some c := by
  induction L generalizing s n with
  | nil => exact hg
  | cons a L ih =>
    rw [CAct.creates_cons] at hL
    obtain ⟨m, h1, h2, h3⟩ := a.step_next_ofNat hn
    refine ih (s := (a.step s).2) (n := m) (by omega) h3 (by omega) (fun h => hd (List.mem_cons_of_mem _ h)) ?_
    rcases a.step_get s (Int32.ofNat i) with h | ⟨rfl, _⟩ | ⟨h4, _, h⟩
    · rw [h, hg]
    · exact absurd List.mem_cons_self hd
    · rw [hn] at h
      rw [if_pos h4] at hL
      have := int32_ofNat_inj (by omega) (by omega) h
      omega

/-- A handle without cache gets none unless a creation returns it. -/
theorem CAct.run_none {s : JsCaches α} (L : List (CAct α)) {h : Int32} (hg : s.reg.get h = none)
    (hL : ∀ L1 a L2, L = L1 ++ a :: L2 → a.isCreate = true → (a.step (CAct.run s L1)).1 ≠ .ok (.handle h)) :
    (CAct.run s L).reg.get h = none := by
  induction L generalizing s with
  | nil => exact hg
  | cons a L ih =>
    refine ih (s := (a.step s).2) ?_ fun L1 b L2 e hb => ?_
    · rcases a.step_get s h with h' | ⟨_, h'⟩ | ⟨h1, h2, _⟩
      · rw [h', hg]
      · exact h'
      · exact absurd h2 (hL [] a L rfl h1)
    · exact hL (a :: L1) b L2 (by rw [e]; rfl) hb

/-- The lock stays free without panic. -/
theorem CAct.step_free {s : JsCaches α} (hs : s.lock = .held 0) (a : CAct α) (ha : (a.step s).1 ≠ .panic) :
    (a.step s).2.lock = .held 0 := by
  cases a with
  | create c =>
    show (s.create c).2.lock = _
    replace ha : (s.create c).1 ≠ .panic := fun h => ha (by show JsVal.handle <$> (s.create c).1 = _; rw [h]; rfl)
    unfold JsCaches.create at ha ⊢
    split
    · exact hs
    · exact hs
    · rename_i c
      rcases JsCaches.write_cases (fun r => r.insert s.reg.next c) s.reg.next { s with reg := s.reg.fetchAdd.2 } with ⟨_, h⟩ | ⟨h, _⟩
      · rw [h]; exact hs
      · exact absurd hs h
  | destroy h =>
    show (s.destroy h).2.lock = _
    unfold JsCaches.destroy
    rcases JsCaches.write_cases (fun r : Registry α => r.remove h) () s with ⟨_, h⟩ | ⟨h, _⟩
    · rw [h]; exact hs
    · exact absurd hs h
  | use h f =>
    show (s.use h f).2.lock = _
    replace ha : (s.use h f).1 ≠ .panic := fun e => ha (by show JsVal.bytes <$> (s.use h f).1 = _; rw [e]; rfl)
    unfold JsCaches.use at ha ⊢
    rw [JsCaches.read_lock _ _ ha, hs]

theorem JsCaches.use_none {β : Type} {s : JsCaches α} {h : Int32} (hg : s.reg.get h = none) (f : α → JsOut β) :
    (s.use h f).1 = .panic := by
  unfold JsCaches.use
  cases hl : s.lock with
  | writing => unfold JsCaches.read; rw [hl]
  | held n => rw [JsCaches.read_of hl, hg]

theorem JsCaches.use_some {β : Type} {s : JsCaches α} {n : Nat} (hl : s.lock = .held n) {h : Int32} {c : α} (hg : s.reg.get h = some c)
    (f : α → JsOut β) : (s.use h f).1 = f c := by
  unfold JsCaches.use
  rw [JsCaches.read_of hl, hg]

end

/-! ### Both cache maps -/

section
variable {K G1 G2 G3 Gt Key Nonce : Type} [Field K] [DecidableEq K] (lib : Lib K G1 G2 G3 Gt Key Nonce)

def JsCall.encAct : JsCall K Gt Nonce → Option (CAct (EncryptionCache G2 Gt))
  | .createEncryptionCache p k => some (.create (jsPrepareEncryptionCache lib p k))
  | .destroyEncryptionCache h => some (.destroy h)
  | .encryptHeaderUsingCache h a u r s n => some (.use h fun c => jsEncryptHeaderWith lib c.policy c.publicKey a u r s n)
  | _ => none

def JsCall.decAct : JsCall K Gt Nonce → Option (CAct (DecryptionKey K G1 G3))
  | .createDecryptionCache k => some (.create (jsPrepareDecryptionCache lib k))
  | .destroyDecryptionCache h => some (.destroy h)
  | .decryptHeaderUsingCache h hd => some (.use h fun key => jsDecryptHeaderWith lib key hd)
  | _ => none

variable {lib}

theorem JsCall.run_encAct {c : JsCall K Gt Nonce} {a : CAct (EncryptionCache G2 Gt)} (h : c.encAct lib = some a)
    (st : JsState K G1 G2 G3 Gt) : (c.run lib st).1 = (a.step st.enc).1 ∧ (c.run lib st).2.enc = (a.step st.enc).2 := by
  cases c <;> simp only [JsCall.encAct, Option.some.injEq, reduceCtorEq] at h <;> subst h <;> exact ⟨rfl, rfl⟩

theorem JsCall.run_decAct {c : JsCall K Gt Nonce} {a : CAct (DecryptionKey K G1 G3)} (h : c.decAct lib = some a)
    (st : JsState K G1 G2 G3 Gt) : (c.run lib st).1 = (a.step st.dec).1 ∧ (c.run lib st).2.dec = (a.step st.dec).2 := by
  cases c <;> simp only [JsCall.decAct, Option.some.injEq, reduceCtorEq] at h <;> subst h <;> exact ⟨rfl, rfl⟩

theorem JsCall.run_encNone {c : JsCall K Gt Nonce} (h : c.encAct lib = none)
    (st : JsState K G1 G2 G3 Gt) : (c.run lib st).2.enc = st.enc := by
  cases c <;> simp only [JsCall.encAct, reduceCtorEq] at h <;> rfl

theorem JsCall.run_decNone {c : JsCall K Gt Nonce} (h : c.decAct lib = none)
    (st : JsState K G1 G2 G3 Gt) : (c.run lib st).2.dec = st.dec := by
  cases c <;> simp only [JsCall.decAct, reduceCtorEq] at h <;> rfl

theorem jsRun_append (st : JsState K G1 G2 G3 Gt) (L1 L2 : List (JsCall K Gt Nonce)) :
    jsRun lib st (L1 ++ L2) = jsRun lib (jsRun lib st L1) L2 := List.foldl_append

theorem jsRun_enc (st : JsState K G1 G2 G3 Gt) (L : List (JsCall K Gt Nonce)) :
    (jsRun lib st L).enc = CAct.run st.enc (L.filterMap (JsCall.encAct lib)) := by
  induction L generalizing st with
  | nil => rfl
  | cons c L ih =>
    show (jsRun lib (c.run lib st).2 L).enc = _
    rw [ih, List.filterMap_cons]
    cases h : c.encAct lib with
    | none => rw [JsCall.run_encNone h]
    | some a => rw [(JsCall.run_encAct h st).2]; rfl

theorem jsRun_dec (st : JsState K G1 G2 G3 Gt) (L : List (JsCall K Gt Nonce)) :
    (jsRun lib st L).dec = CAct.run st.dec (L.filterMap (JsCall.decAct lib)) := by
  induction L generalizing st with
  | nil => rfl
  | cons c L ih =>
    show (jsRun lib (c.run lib st).2 L).dec = _
    rw [ih, List.filterMap_cons]
    cases h : c.decAct lib with
    | none => rw [JsCall.run_decNone h]
    | some a => rw [(JsCall.run_decAct h st).2]; rfl

theorem creates_encActs (L : List (JsCall K Gt Nonce)) :
    CAct.creates (L.filterMap (JsCall.encAct lib)) = jsEncCreations L := by
  induction L with
  | nil => rfl
  | cons c L ih =>
    unfold jsEncCreations at ih ⊢
    rw [List.filterMap_cons, List.filter_cons]
    cases c <;> simp only [JsCall.encAct, CAct.creates_cons, CAct.isCreate, ih, reduceIte, List.length_cons, Bool.false_eq_true] <;> omega

theorem creates_decActs (L : List (JsCall K Gt Nonce)) :
    CAct.creates (L.filterMap (JsCall.decAct lib)) = jsDecCreations L := by
  induction L with
  | nil => rfl
  | cons c L ih =>
    unfold jsDecCreations at ih ⊢
    rw [List.filterMap_cons, List.filter_cons]
    cases c <;> simp only [JsCall.decAct, CAct.creates_cons, CAct.isCreate, ih, reduceIte, List.length_cons, Bool.false_eq_true] <;> omega

theorem destroy_encActs {L : List (JsCall K Gt Nonce)} {h : Int32}
    (hd : CAct.destroy h ∈ L.filterMap (JsCall.encAct lib)) : JsCall.destroyEncryptionCache h ∈ L := by
  obtain ⟨c, hc, h'⟩ := List.mem_filterMap.1 hd
  cases c <;> simp only [JsCall.encAct, Option.some.injEq, reduceCtorEq, CAct.destroy.injEq] at h'
  subst h'
  exact hc

theorem destroy_decActs {L : List (JsCall K Gt Nonce)} {h : Int32}
    (hd : CAct.destroy h ∈ L.filterMap (JsCall.decAct lib)) : JsCall.destroyDecryptionCache h ∈ L := by
  obtain ⟨c, hc, h'⟩ := List.mem_filterMap.1 hd
  cases c <;> simp only [JsCall.decAct, Option.some.injEq, reduceCtorEq, CAct.destroy.injEq] at h'
  subst h'
  exact hc

theorem jsNoPanic_enc {st : JsState K G1 G2 G3 Gt} {L : List (JsCall K Gt Nonce)} (h : JsNoPanic lib st L)
    (hs : st.enc.lock = .held 0) : (jsRun lib st L).enc.lock = .held 0 := by
  induction L generalizing st with
  | nil => exact hs
  | cons c L ih =>
    refine ih h.2 ?_
    cases hc : c.encAct lib with
    | none => rw [JsCall.run_encNone hc]; exact hs
    | some a =>
      obtain ⟨h1, h2⟩ := JsCall.run_encAct hc st
      rw [h2]
      exact a.step_free hs (h1 ▸ h.1)

theorem jsNoPanic_dec {st : JsState K G1 G2 G3 Gt} {L : List (JsCall K Gt Nonce)} (h : JsNoPanic lib st L)
    (hs : st.dec.lock = .held 0) : (jsRun lib st L).dec.lock = .held 0 := by
  induction L generalizing st with
  | nil => exact hs
  | cons c L ih =>
    refine ih h.2 ?_
    cases hc : c.decAct lib with
    | none => rw [JsCall.run_decNone hc]; exact hs
    | some a =>
      obtain ⟨h1, h2⟩ := JsCall.run_decAct hc st
      rw [h2]
      exact a.step_free hs (h1 ▸ h.1)

/-- The split of a projected history. -/
theorem filterMap_split {α β : Type} {f : α → Option β} {L : List α} {l1 : List β} {b : β} {l2 : List β}
    (h : L.filterMap f = l1 ++ b :: l2) : ∃ L1 a L2, L = L1 ++ a :: L2 ∧ L1.filterMap f = l1 ∧ f a = some b ∧ L2.filterMap f = l2 := by
  obtain ⟨L1, R, rfl, h1, h2⟩ := List.filterMap_eq_append_iff.1 h
  obtain ⟨L3, a, L2, rfl, h3, h4, h5⟩ := List.filterMap_eq_cons_iff.1 h2
  refine ⟨L1 ++ L3, a, L2, by simp, ?_, h4, h5⟩
  rw [List.filterMap_append, h1, List.filterMap_eq_nil_iff.2 h3, List.append_nil]

end

end Abe

import Verif.Spec.Py
import Verif.Proofs.Engine
import Verif.Proofs.CodecKeys
import Verif.Proofs.Hybrid

namespace Abe

set_option linter.unusedSectionVars false

theorem py_eq_ok {α : Type} {x : Out α} {a : α} : py x = .ok a ↔ x = .ok a := by
  cases x <;> simp [py, Res.mapErr]

theorem py_eq_panic {α : Type} {x : Out α} : py x = .panic ↔ x = .panic := by
  cases x <;> simp [py, Res.mapErr]

theorem py_eq_err {α : Type} {x : Out α} {z : PyErr} : py x = .err z ↔ x.isErr := by
  cases x <;> simp [py, Res.mapErr, Res.isErr]

@[simp] theorem py_ok {α : Type} (a : α) : py (.ok a : Out α) = .ok a := rfl
@[simp] theorem py_err {α : Type} (x : FormatErr) : py (.err x : Out α) = .err .typeError := rfl
@[simp] theorem py_panic {α : Type} : py (.panic : Out α) = .panic := rfl

theorem pyArg_eq_ok {α : Type} {x : Option α} {a : α} : pyArg x = .ok a ↔ x = some a := by
  cases x <;> simp [pyArg, Res.ofOption]

@[simp] theorem pyArg_some {α : Type} (a : α) : pyArg (some a) = .ok a := rfl
@[simp] theorem pyArg_none {α : Type} : pyArg (none : Option α) = .err .typeError := rfl

section
variable {K P Q QP T Key Nonce : Type} [Field K] [DecidableEq K] [AddCommGroup P] [Module K P] [AddCommGroup Q] [Module K Q]
  [AddCommGroup T] [Module K T]

theorem UserKey.obtained {c : Curve K P Q QP T} {p : Policy} {mk : MasterKey K P Q T} {ap : AccessPolicy}
    {key : DecryptionKey K QP Q} (h : UserKey c p mk ap key) : Obtained c key := by
  induction h with
  | generate rnd h => exact .generate _ _ _ _ h
  | randomise rnd _ h ih => exact .delegate _ _ _ _ ih h
  | delegate rnd _ _ _ h ih => exact .delegate _ _ _ _ ih h

/-- A user key has at most as many rows as the creation budget. -/
theorem UserKey.nbRow_le {c : Curve K P Q QP T} {p : Policy} (hw : p.WF) {rnd : Nat → K} {y : K} {mk : MasterKey K P Q T}
    (hmk : engineGenerateMasterKey (bls c) p rnd y = .ok mk) {ap : AccessPolicy}
    {key : DecryptionKey K QP Q} (h : UserKey c p mk ap key) : key.msp.nbRow ≤ p.maxAttributeCreations.toNat := by
  obtain ⟨tI, hlen, hnz, rfl⟩ := generateMasterKey_inv c hmk
  obtain ⟨F, msp, lam, hk⟩ := userKey_ok c hw hnz h
  rw [hk.key_eq]
  show msp.nbRow ≤ _
  have hm := hk.mspFor
  rw [hm.nbRow, ← hm.rta, ← hlen]
  have hsub : (msp.rowToAttr.map UInt32.toNat) ⊆ List.range tI.length := by
    intro n hn
    obtain ⟨a, ha, rfl⟩ := List.mem_map.1 hn
    exact List.mem_range.2 (hk.covers a (hm.perm.mem_iff.1 ha)).1
  have hnd : (msp.rowToAttr.map UInt32.toNat).Nodup := hm.nodup.map fun a b h => UInt32.toNat_inj.1 h
  have := (hnd.subperm hsub).length_le
  simpa using this

end

end Abe

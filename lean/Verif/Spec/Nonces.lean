import Verif.Model.AesGcm
import Mathlib.Data.Fintype.EquivFin
import Mathlib.Data.Fintype.Pi

/-!
# The nonces of AES-GCM

They are finitely many, hence can be drawn uniformly.
-/

namespace Abe

/-- There are finitely many nonces. -/
noncomputable instance : Fintype AesNonce := Fintype.ofInjective (fun (n : AesNonce) (i : Fin 12) => (n.val.getD i 0).toFin) (by
  intro a b h
  refine Subtype.ext (List.ext_getElem (a.2.trans b.2.symm) fun i hi _ => ?_)
  have := congrFun h ⟨i, a.2 ▸ hi⟩
  simp only [List.getD_eq_getElem?_getD] at this
  rw [List.getElem?_eq_getElem hi, List.getElem?_eq_getElem (by rw [b.2, ← a.2]; exact hi)] at this
  exact UInt8.toFin_inj.1 this)

instance : Nonempty AesNonce := ⟨⟨List.replicate 12 0, rfl⟩⟩

end Abe

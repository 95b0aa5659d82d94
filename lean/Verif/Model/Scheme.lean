import Verif.Model.Msp
import Verif.Model.Bilinear

/-!
# The GPSW scheme

Model of /repo/src/core/gpsw/scheme.rs (keys and algorithms; the byte encodings are in `Verif.Model.Codec`).
-/

namespace Abe

variable {K G1 G2 G3 Gt : Type}

/-- `GpswMasterPrivateKey`, /repo/src/core/gpsw/scheme.rs:12-17. -/
structure MasterPrivateKey (K : Type) where
  tI : List K
  y : K
  deriving DecidableEq

/-- `GpswMasterPublicKey`, /repo/src/core/gpsw/scheme.rs:19-24. -/
structure MasterPublicKey (G2 Gt : Type) where
  tI : List G2
  y : Gt
  deriving DecidableEq

/-- `GpswMasterPublicDelegationKey`, /repo/src/core/gpsw/scheme.rs:26-30. -/
structure DelegationKey (G3 : Type) where
  invTI : List G3
  deriving DecidableEq

/-- `GpswMasterKey`, /repo/src/core/gpsw/scheme.rs:32-36. -/
structure MasterKey (K G2 G3 Gt : Type) where
  privKey : MasterPrivateKey K
  pubKey : MasterPublicKey G2 Gt
  delKey : DelegationKey G3

/-- `GpswDecryptionKey`, /repo/src/core/gpsw/scheme.rs:38-45. -/
structure DecryptionKey (K G1 G3 : Type) where
  rawDI : List G3
  dI : List G1
  msp : Msp K

/-- `GpswCipherText`, /repo/src/core/gpsw/scheme.rs:87-92. -/
structure CipherText (G2 Gt : Type) where
  gamma : List UInt32
  ePrime : Gt
  eI : List G2
  deriving DecidableEq

section
variable [Field K] [DecidableEq K]

/-- `Gpsw::generate_master_key`, /repo/src/core/gpsw/scheme.rs:333-354.  `rnd` and `y` are the random draws. -/
def generateMasterKey (bm : BilinearMap K G1 G2 G3 Gt) (size : Nat) (rnd : Nat → K) (y : K) :
    Out (MasterKey K G2 G3 Gt) := do
  let tI := genScalars rnd size
  let bigY := bm.gtGenExp y
  let bigTi := bm.g2GenExpVector tI
  let inv ← mapRes (fun ti => sdiv 1 ti) tI
  let invBigTi := bm.g3GenExpVector inv
  .ok { privKey := ⟨tI, y⟩, pubKey := ⟨bigTi, bigY⟩, delKey := ⟨invBigTi⟩ }

/-- `iter().reduce(|a, b| a + &b).unwrap_or(ZERO)`.  /repo/src/core/gpsw/scheme.rs:559-560. -/
def reduceAdd : List K → K
  | [] => 0
  | x :: xs => xs.foldl (· + ·) x

/-- `Gpsw::prod_scal`, /repo/src/core/gpsw/scheme.rs:554-561 (`zip` stops at the shorter list). -/
def prodScal {I : Type} (conv : I → K) (v1 : List I) (v2 : List K) : K :=
  reduceAdd ((v1.zip v2).map fun p => conv p.1 * p.2)

/-- The random vector `u` with `Σ uᵢ = total`, /repo/src/core/gpsw/scheme.rs:361-370, 403-412 and 446-455
(for the latter two `total = 0` and the last entry is `-u_l`). -/
def sharingVector (cols : Nat) (total : K) (rnd : Nat → K) : Out (List K) :=
  match cols with
  | 0 => .err (.internalOperation "empty MSP")
  | 1 => .ok [total]
  | x + 2 =>
    let u := genScalars rnd (x + 1)
    let uL := u.foldl (· + ·) 0
    .ok (u ++ [total - uL])

/-- Loop body of `key_generation`, /repo/src/core/gpsw/scheme.rs:374-388, for row number `i`. -/
def keyGenRow (bm : BilinearMap K G1 G2 G3 Gt) (msp : Msp Int) (priv : MasterPrivateKey K) (u : List K)
    (p : List Int × Nat) : Out (G1 × G3) := do
  let (row, i) := p
  let ps := prodScal bm.fromI32 row u
  let attr ← msp.getAttrFromRow i
  if attr.toNat ≥ priv.tI.length then
    .err (.internalOperation
      "Monotone Span Program is invalid: msp-row larger than private-key-t_i")
  else do
    let t ← idx priv.tI attr.toNat
    let x ← sdiv ps t
    .ok (bm.g1GenExp x)

/-- `Gpsw::key_generation`, /repo/src/core/gpsw/scheme.rs:356-394. -/
def keyGeneration (bm : BilinearMap K G1 G2 G3 Gt) (msp : Msp Int) (priv : MasterPrivateKey K)
    (rnd : Nat → K) : Out (DecryptionKey K G1 G3) := do
  let u ← sharingVector msp.nbCol priv.y rnd
  let ds ← mapRes (keyGenRow bm msp priv u) msp.matrix.zipIdx
  .ok { rawDI := ds.map Prod.snd, dI := ds.map Prod.fst, msp := msp.convert bm.fromI32 }

/-- Loop body shared by `key_delegation` (/repo/src/core/gpsw/scheme.rs:416-431) and `key_randomization` (459-474):
`conv` converts the matrix entries (`From<i32>` in the former, the identity in the latter). -/
def delegateRow {I : Type} (bm : BilinearMap K G1 G2 G3 Gt) (conv : I → K) (msp : Msp I)
    (userKey : DecryptionKey K G1 G3) (delKey : DelegationKey G3) (u : List K)
    (p : List I × Nat) : Out (G1 × G3) := do
  let (row, i) := p
  let ps := prodScal conv row u
  let attr ← msp.getAttrFromRow i
  let gt ← idx delKey.invTI attr.toNat
  let di := bm.g3Exp gt ps
  match userKey.msp.getRowFromAttr attr with
  | some index => do
    let old ← idx userKey.rawDI index
    .ok (bm.g3Mul old di)
  | none => .err (.internalOperation "new attribute is not allowed")

/-- `Gpsw::key_delegation`, /repo/src/core/gpsw/scheme.rs:396-437. -/
def keyDelegation (bm : BilinearMap K G1 G2 G3 Gt) (msp : Msp Int) (userKey : DecryptionKey K G1 G3)
    (delKey : DelegationKey G3) (rnd : Nat → K) : Out (DecryptionKey K G1 G3) := do
  let u ← sharingVector msp.nbCol 0 rnd
  let ds ← mapRes (delegateRow bm bm.fromI32 msp userKey delKey u) msp.matrix.zipIdx
  .ok { rawDI := ds.map Prod.snd, dI := ds.map Prod.fst, msp := msp.convert bm.fromI32 }

/-- `Gpsw::key_randomization`, /repo/src/core/gpsw/scheme.rs:439-480. -/
def keyRandomization (bm : BilinearMap K G1 G2 G3 Gt) (userKey : DecryptionKey K G1 G3)
    (delKey : DelegationKey G3) (rnd : Nat → K) : Out (DecryptionKey K G1 G3) := do
  let msp := userKey.msp
  let u ← sharingVector msp.nbCol 0 rnd
  let ds ← mapRes (delegateRow bm id msp userKey delKey u) msp.matrix.zipIdx
  .ok { rawDI := ds.map Prod.snd, dI := ds.map Prod.fst, msp := msp }

/-- `AbeScheme::key_delegation` of `Gpsw`, /repo/src/core/gpsw/scheme.rs:283-294. -/
def abeKeyDelegation (bm : BilinearMap K G1 G2 G3 Gt) (msp : Option (Msp Int)) (userKey : DecryptionKey K G1 G3)
    (delKey : DelegationKey G3) (rnd : Nat → K) : Out (DecryptionKey K G1 G3) :=
  match msp with
  | none => keyRandomization bm userKey delKey rnd
  | some m => keyDelegation bm m userKey delKey rnd

/-- `Gpsw::encrypt`, /repo/src/core/gpsw/scheme.rs:486-511.  `s` is the random draw.  The error message evaluates
`pub_key.t_i.len() - 1` (line 496), which overflows when the public key has no slot. -/
def encrypt (bm : BilinearMap K G1 G2 G3 Gt) (t : Target) (msg : Gt) (gamma : List UInt32)
    (pub : MasterPublicKey G2 Gt) (s : K) : Out (CipherText G2 Gt) :=
  if pub.tI.length ≤ gamma.length then do
    let max ← t.usub pub.tI.length 1
    .err (.internalOperation ("invalid attributes: gamma value incorrect (value: " ++ toString gamma.length ++ ", max expected size: " ++ toString max ++ ")"))
  else do
    let ePrime := bm.gtMul msg (bm.gtExp pub.y s)
    let eI ← mapRes (fun i : UInt32 => do
      let ti ← idx pub.tI i.toNat
      .ok (bm.g2Exp ti s)) gamma
    .ok { gamma := gamma, ePrime := ePrime, eI := eI }

/-! ### Gauss-Jordan elimination -/

/-- `matrix[c][r]`.  /repo/src/core/gpsw/scheme.rs:586-642. -/
def entry (m : List (List K)) (c r : Nat) : Out K := do
  let col ← idx m c
  idx col r

/-- Search of the first non-zero entry of a column among the rows of the list,
/repo/src/core/gpsw/scheme.rs:590-599 (the list is `curr_row..nb_row`). -/
def findPivot (m : List (List K)) (c : Nat) : List Nat → Out (Option Nat)
  | [] => .ok none
  | r :: rs => do
    let x ← entry m c r
    if x ≠ 0 then .ok (some r) else findPivot m c rs

/-- `slice::swap(i, j)`.  /repo/src/core/gpsw/scheme.rs:604. -/
def swapIdx (l : List K) (i j : Nat) : Out (List K) := do
  let a ← idx l i
  let b ← idx l j
  .ok ((l.set i b).set j a)

/-- `for x in v.iter_mut().skip(k) { *x = f(x) }`.  /repo/src/core/gpsw/scheme.rs:610, 620 and 630. -/
def mapSkip {α : Type} (f : α → Out α) : Nat → List α → Out (List α)
  | 0, l => mapRes f l
  | _ + 1, [] => .ok []
  | k + 1, a :: l => do
    let l' ← mapSkip f k l
    .ok (a :: l')

/-- Normalisation of the pivot row, /repo/src/core/gpsw/scheme.rs:607-615. -/
def divideStep (m : List (List K)) (c r : Nat) : Out (List (List K)) := do
  let piv ← entry m c r
  if piv ≠ 1 then do
    let col ← idx m c
    let m1 := m.set c (col.set r 1)
    mapSkip (fun col => do
      let x ← idx col r
      let y ← sdiv x piv
      .ok (col.set r y)) (c + 1) m1
  else .ok m

/-- Elimination of row `r` with pivot row `r0` and pivot column `c`,
/repo/src/core/gpsw/scheme.rs:618-624 and 628-634. -/
def elimRow (c r0 : Nat) (m : List (List K)) (r : Nat) : Out (List (List K)) := do
  let index ← entry m c r
  if index ≠ 0 then
    mapSkip (fun col => do
      let x ← idx col r
      let p ← idx col r0
      .ok (col.set r (x - index * p))) c m
  else .ok m

/-- One successful pivoting step, /repo/src/core/gpsw/scheme.rs:602-635. -/
def pivotStep (m : List (List K)) (nbRow c r0 row : Nat) : Out (List (List K)) := do
  let m ← mapRes (fun col => swapIdx col r0 row) m
  let m ← divideStep m c r0
  let m ← foldRes (elimRow c r0) m (List.range' (r0 + 1) (nbRow - (r0 + 1)))
  foldRes (elimRow c r0) m (List.range r0)

/-- The elimination `loop`, /repo/src/core/gpsw/scheme.rs:586-642.  `k` is `nb_col - curr_col`
(`curr_col` grows by one per iteration); the result is the matrix and `last_pivot_col`. -/
def gaussLoop (nbRow : Nat) : (k : Nat) → (m : List (List K)) → (currRow currCol lastPivot : Nat) →
    Out (List (List K) × Nat)
  | 0, m, _, _, last => .ok (m, last)
  | k + 1, m, currRow, currCol, last =>
    if currRow = nbRow then .ok (m, last)
    else do
      let row ← findPivot m currCol (List.range' currRow (nbRow - currRow))
      match row with
      | some row => do
        let m' ← pivotStep m nbRow currCol currRow row
        gaussLoop nbRow k m' (currRow + 1) (currCol + 1) currCol
      | none => gaussLoop nbRow k m currRow (currCol + 1) last

/-- The inner `while` of the extraction, /repo/src/core/gpsw/scheme.rs:651-657, on row `i`.  `k` is
`nb_col - current_col`; `none` stands for `break 'outer`.  With `k = 0` the Rust code would index out of bounds. -/
def skipZeros (m : List (List K)) (i : Nat) : (k : Nat) → (cur : Nat) → (sol : List K) →
    Out (Option Nat × List K)
  | 0, _, _ => .panic
  | k + 1, cur, sol => do
    let x ← entry m cur i
    if x = 0 then
      if k = 0 then .ok (none, sol ++ [0])
      else skipZeros m i k (cur + 1) (sol ++ [0])
    else .ok (some cur, sol)

/-- The extraction loop `'outer`, /repo/src/core/gpsw/scheme.rs:650-667. -/
def extractSol (m : List (List K)) (nbCol : Nat) : List Nat → (cur : Nat) → (sol : List K) → Out (List K)
  | [], _, sol => .ok sol
  | i :: is, cur, sol => do
    let (c, sol) ← skipZeros m i (nbCol - cur) cur sol
    match c with
    | none => .ok sol
    | some cur => do
      let x ← entry m cur i
      if x = 1 then do
        let last ← Res.unwrap m.getLast?
        let v ← idx last i
        let sol := sol ++ [v]
        if cur + 1 = nbCol then .ok sol
        else extractSol m nbCol is (cur + 1) sol
      else .panic

/-- `Gpsw::span_coefs`, /repo/src/core/gpsw/scheme.rs:567-670: coefficients combining the rows of `matrix` into
the all-ones vector. -/
def spanCoefs (matrix : List (List K)) : Out (Option (List K)) :=
  match matrix with
  | [] => .err (.internalOperation "empty input matrix")
  | first :: _ =>
    if first.isEmpty then .err (.internalOperation "empty input matrix")
    else do
      let m := matrix ++ [List.replicate first.length 1]
      let nbCol := m.length
      let nbRow := first.length
      let (m, last) ← gaussLoop nbRow nbCol m 0 0 0
      if last = nbCol - 1 then .ok none
      else do
        let sol ← extractSol m nbCol (List.range nbRow) 0 []
        .ok (some (resize sol (nbCol - 1) 0))

/-- The submatrix and components selected by the ciphertext attributes,
/repo/src/core/gpsw/scheme.rs:520-529; `i` is the enumeration index. -/
def selectRows (key : DecryptionKey K G1 G3) (enc : CipherText G2 Gt) :
    List UInt32 → Nat → Out (List (List K × G1 × G2))
  | [], _ => .ok []
  | attr :: attrs, i =>
    match key.msp.getRowFromAttr attr with
    | some row => do
      let r ← key.msp.getRow row
      let d ← idx key.dI row
      let e ← idx enc.eI i
      let rest ← selectRows key enc attrs (i + 1)
      .ok ((r, d, e) :: rest)
    | none => selectRows key enc attrs (i + 1)

/-- `filter_map(|(i, x)| if a_i[i] == ZERO {None} else {Some(x)})`, /repo/src/core/gpsw/scheme.rs:534-543. -/
def keepNonZero {α : Type} (a : List K) : List α → Nat → Out (List α)
  | [], _ => .ok []
  | x :: xs, i => do
    let ai ← idx a i
    let rest ← keepNonZero a xs (i + 1)
    if ai = 0 then .ok rest else .ok (x :: rest)

/-- `Gpsw::decrypt`, /repo/src/core/gpsw/scheme.rs:513-552. -/
def decrypt (bm : BilinearMap K G1 G2 G3 Gt) (enc : CipherText G2 Gt) (key : DecryptionKey K G1 G3) :
    Out (Option Gt) := do
  let sel ← selectRows key enc enc.gamma 0
  let coefs ← spanCoefs (sel.map fun p => p.1)
  match coefs with
  | none => .ok none
  | some a => do
    let d ← keepNonZero a (sel.map fun p => p.2.1) 0
    let e ← keepNonZero a (sel.map fun p => p.2.2) 0
    let a' := a.filter fun ai => ai ≠ 0
    let prod := bm.prodGtExp d e a'
    .ok (some (bm.gtDiv enc.ePrime prod))

end

end Abe

import Mathlib.Algebra.Field.Basic
import Mathlib.Algebra.BigOperators.Fin
import Mathlib.Data.Fin.VecNotation
import Mathlib.Data.List.FinRange

/-!
# Model of `src/hyperelastic/math/_voigt.py`

At one point of the trailing axes, over an arbitrary field `K`.
`Vec6 K` is an array of shape `(6,)`, `Mat6 K` of shape `(6, 6)`, `Full2 K` of shape
`(3, 3)`, `Full4 K` of shape `(3, 3, 3, 3)`.
-/

namespace Hel

abbrev Vec3 (K : Type*) := Fin 3 → K
abbrev Vec6 (K : Type*) := Fin 6 → K
abbrev Mat6 (K : Type*) := Fin 6 → Fin 6 → K
abbrev Full2 (K : Type*) := Fin 3 → Fin 3 → K
abbrev Full4 (K : Type*) := Fin 3 → Fin 3 → Fin 3 → Fin 3 → K

variable {K : Type*}

/-- numpy fancy indexing along the first axis, `A[[i0, i1, ...]]` (always a copy). -/
def take {α : Type*} {m n : ℕ} (A : Fin m → α) (idx : Fin n → Fin m) : Fin n → α := fun i => A (idx i)

/-- `B[i, j] = x` on a two-dimensional array. -/
def setEntry {n : ℕ} (B : Fin n → Fin n → K) (i j : Fin n) (x : K) : Fin n → Fin n → K :=
  fun a b => if a = i ∧ b = j then x else B a b

/-- A sequence of entry writes, executed in order. -/
def writes {n : ℕ} (B : Fin n → Fin n → K) (ws : List (Fin n × Fin n × K)) : Fin n → Fin n → K :=
  ws.foldl (fun B w => setEntry B w.1 w.2.1 w.2.2) B

/-! ### asvoigt, lines 4-122 -/

/-- `asvoigt(A, mode=2)`; `_voigt.py` lines 89-93: `A[i, j]` with `i = [0,1,2,0,1,0]`,
`j = [0,1,2,1,2,2]`. -/
def asvoigt (A : Full2 K) : Vec6 K :=
  fun a => A (![0, 1, 2, 0, 1, 0] a) (![0, 1, 2, 1, 2, 2] a)

/-- `asvoigt(A, mode=4)`; `_voigt.py` lines 95-122, the writes in the order of the code
(the two `for` loops unrolled). -/
def asvoigt4 [Zero K] (A : Full4 K) : Mat6 K :=
  writes (fun _ _ => 0) <|
    -- lines 97-99: for i, for j: B[i, j] = A[i, i, j, j]
    [ (0, 0, A 0 0 0 0), (0, 1, A 0 0 1 1), (0, 2, A 0 0 2 2),
      (1, 0, A 1 1 0 0), (1, 1, A 1 1 1 1), (1, 2, A 1 1 2 2),
      (2, 0, A 2 2 0 0), (2, 1, A 2 2 1 1), (2, 2, A 2 2 2 2),
    -- lines 101-103
      (3, 3, A 0 1 0 1), (4, 4, A 1 2 1 2), (5, 5, A 0 2 0 2),
    -- lines 105-111: for i in range(3)
      (0, 3, A 0 0 0 1), (0, 4, A 0 0 1 2), (0, 5, A 0 0 0 2),
      (3, 0, A 0 1 0 0), (4, 0, A 1 2 0 0), (5, 0, A 0 2 0 0),
      (1, 3, A 1 1 0 1), (1, 4, A 1 1 1 2), (1, 5, A 1 1 0 2),
      (3, 1, A 0 1 1 1), (4, 1, A 1 2 1 1), (5, 1, A 0 2 1 1),
      (2, 3, A 2 2 0 1), (2, 4, A 2 2 1 2), (2, 5, A 2 2 0 2),
      (3, 2, A 0 1 2 2), (4, 2, A 1 2 2 2), (5, 2, A 0 2 2 2),
    -- lines 113-120
      (3, 4, A 0 1 1 2), (3, 5, A 0 1 0 2),
      (4, 3, A 1 2 0 1), (4, 5, A 1 2 0 2),
      (5, 3, A 0 2 0 1), (5, 4, A 0 2 1 2) ]

/-! ### astensor, lines 125-221 -/

/-- The index table `np.array([0,3,5,3,1,4,5,4,2]).reshape(3,3)`; lines 215, 219, 916. -/
def tab : Fin 3 → Fin 3 → Fin 6 := ![![0, 3, 5], ![3, 1, 4], ![5, 4, 2]]

/-- `astensor(A, mode=2)`; lines 214-216. -/
def astensor (A : Vec6 K) : Full2 K := fun i j => A (tab i j)

/-- `astensor(A, mode=4)`; lines 218-221 (`meshgrid` of the flattened table, reshaped). -/
def astensor4 (A : Mat6 K) : Full4 K := fun i j k l => A (tab i j) (tab k l)

/-! ### triangle copies, lines 224-243 -/

/-- `tril_from_triu(A, dim, out)`; lines 224-232.  `out = none` is `A.copy()`.
`np.triu_indices(dim, 1)` are the pairs `i < j < dim`; `out[j, i] = A[i, j]`.  (`dim`
larger than the array raises `IndexError`; the model is used with `dim ≤ n`.) -/
def trilFromTriu {n : ℕ} (A : Fin n → Fin n → K) (dim : ℕ) (out : Option (Fin n → Fin n → K)) :
    Fin n → Fin n → K :=
  let out := out.getD A
  fun r c => if c < r ∧ r.val < dim then A c r else out r c

/-- `triu_from_tril(A, dim, out)`; lines 235-243.  `np.tril_indices(dim, -1)` are the
pairs `j < i < dim`; `out[j, i] = A[i, j]`. -/
def triuFromTril {n : ℕ} (A : Fin n → Fin n → K) (dim : ℕ) (out : Option (Fin n → Fin n → K)) :
    Fin n → Fin n → K :=
  let out := out.getD A
  fun r c => if r < c ∧ c.val < dim then A c r else out r c

/-! ### trace, transpose, det, lines 246-381 -/

/-- `trace(A) = np.sum(A[:3], axis=0)`; line 286. -/
def trace [Add K] (A : Vec6 K) : K := A 0 + A 1 + A 2

/-- `transpose(A) = np.swapaxes(A, 0, 1)`; line 343. -/
def transpose (A : Mat6 K) : Mat6 K := fun a b => A b a

/-- `det(A)`; lines 375-381. -/
def det [CommRing K] (A : Vec6 K) : K :=
  A 0 * A 1 * A 2 + 2 * A 3 * A 4 * A 5 - A 4 ^ 2 * A 0 - A 5 ^ 2 * A 1 - A 3 ^ 2 * A 2

/-! ### inv, lines 384-448 -/

/-- The arrays alive while `inv` runs: the argument, the four fancy-indexed copies and a
buffer owned by the caller. -/
inductive Buf where
  | A | Ai | Aj | Ak | Al | user
  deriving DecidableEq, Repr

/-- The contents of these arrays. -/
abbrev Heap (K : Type*) := Buf → Vec6 K

/-- `np.<ufunc>(..., out=r)`: overwrite array `r`. -/
def Heap.store (h : Heap K) (r : Buf) (x : Vec6 K) : Heap K := fun b => if b = r then x else h b

/-- `inv(A, determinant=None, out=None)`; lines 427-448, statement by statement on the heap.
`out` is a reference to the caller's array: none, another array (`user`), or the argument
itself (`A`, in-place inversion).  Returns the reference of the result and the final heap. -/
def invHeap [CommRing K] [Div K] (h : Heap K) (determinant : Option K) (out : Option Buf) : Buf × Heap K :=
  -- lines 429-432
  let detA := match determinant with
    | none => det (h .A)
    | some d => d
  -- lines 434-437: copies
  let h := h.store .Ai (take (h .A) ![1, 0, 0, 4, 3, 3])
  let h := h.store .Aj (take (h .A) ![2, 2, 1, 5, 5, 4])
  let h := h.store .Ak (take (h .A) ![4, 5, 3, 3, 0, 1])
  let h := h.store .Al (take (h .A) ![4, 5, 3, 2, 4, 5])
  -- lines 439-440
  let out := match out with
    | none => Buf.Ai
    | some r => r
  -- line 442: Aij = np.multiply(Ai, Aj, out=Ai)
  let h := h.store .Ai (fun a => h .Ai a * h .Aj a)
  -- line 443: Akl = np.multiply(Ak, Al, out=Ak)
  let h := h.store .Ak (fun a => h .Ak a * h .Al a)
  -- line 445: detAinvA = np.subtract(Aij, Akl, out=out)
  let h := h.store out (fun a => h .Ai a - h .Ak a)
  -- line 447: np.divide(*np.broadcast_arrays(detAinvA, detA), out=out)
  let h := h.store out (fun a => h out a / detA)
  (out, h)

/-- `inv(A)` as called by the library (no buffer), with an optional determinant: the content
of the returned array. -/
def inv [CommRing K] [Div K] (A : Vec6 K) (determinant : Option K := none) : Vec6 K :=
  let r := invHeap (fun _ => A) determinant none
  r.2 r.1

/-! ### dot, eye, ddot, dya, dev; lines 451-725 -/

/-- `dot(A, B)`; lines 499-511 (mode `(2, 2)`, the only one with a result). -/
def dot [CommRing K] (A B : Vec6 K) : Full2 K :=
  ![![A 0 * B 0 + A 3 * B 3 + A 5 * B 5, A 0 * B 3 + A 3 * B 1 + A 5 * B 4,
      A 0 * B 5 + A 3 * B 4 + A 5 * B 2],
    ![A 3 * B 0 + A 1 * B 3 + A 4 * B 5, A 3 * B 3 + A 1 * B 1 + A 4 * B 4,
      A 3 * B 5 + A 1 * B 4 + A 4 * B 2],
    ![A 5 * B 0 + A 4 * B 3 + A 2 * B 5, A 5 * B 3 + A 4 * B 1 + A 2 * B 4,
      A 4 * B 4 + A 5 * B 5 + A 2 * B 2]]

/-- `eye()`; lines 548-552. -/
def eye [Zero K] [One K] : Vec6 K := ![1, 1, 1, 0, 0, 0]

/-- `weights = np.array([1, 1, 1, 2, 2, 2])`; line 635. -/
def weights [CommRing K] : Vec6 K := ![1, 1, 1, 2, 2, 2]

/-- `ddot(A, B, mode=(2, 2))`; line 637. -/
def ddot [CommRing K] (A B : Vec6 K) : K := ∑ i, A i * B i * weights i

/-- `ddot(A, B, mode=(4, 4))`; line 639. -/
def ddot44 [CommRing K] (A B : Mat6 K) : Mat6 K := fun i j => ∑ k, A i k * B k j * weights k

/-- `ddot(A, B, mode=(4, 2))`; line 641. -/
def ddot42 [CommRing K] (A : Mat6 K) (B : Vec6 K) : Vec6 K := fun i => ∑ j, A i j * B j * weights j

/-- `ddot(A, B, mode=(2, 4))`; line 643. -/
def ddot24 [CommRing K] (A : Vec6 K) (B : Mat6 K) : Vec6 K := fun j => ∑ i, A i * B i j * weights i

/-- `dya(A, B)`; lines 697-701. -/
def dya [Mul K] (A B : Vec6 K) : Mat6 K := fun a b => A a * B b

/-- `dev(A)`; line 725. -/
def dev [CommRing K] [Div K] (A : Vec6 K) : Vec6 K := fun a => A a - trace A / 3 * eye a

/-- `np.swapaxes(T, 1, 2)`. -/
def swap12 (T : Full4 K) : Full4 K := fun i j k l => T i k j l

/-- `np.swapaxes(T, 1, 3)`. -/
def swap13 (T : Full4 K) : Full4 K := fun i j k l => T i l k j

/-- `cdya_ik(A, B)`; line 779. -/
def cdya_ik [Mul K] (A B : Vec6 K) : Full4 K := swap12 (astensor4 (dya A B))

/-- `cdya_il(A, B)`; line 833. -/
def cdya_il [Mul K] (A B : Vec6 K) : Full4 K := swap13 (astensor4 (dya A B))

/-! ### cdya, lines 913-947 -/

/-- `np.triu_indices(6)` as a list of pairs, row by row. -/
def triu6 : List (Fin 6 × Fin 6) :=
  (List.finRange 6).flatMap fun i => ((List.finRange 6).filter fun j => i ≤ j).map fun j => (i, j)

/-- `a = np.array([(0,0),(1,1),(2,2),(0,1),(1,2),(0,2)])`; line 915. -/
def pairs : Fin 6 → Fin 3 × Fin 3 := ![(0, 0), (1, 1), (2, 2), (0, 1), (1, 2), (0, 2)]

/-- One entry of `values`; lines 918-943.  `same` is the outcome of `A is B`
(`np.broadcast_arrays` returns arrays of equal shape unchanged, so the identity of the
caller's objects is what is tested). -/
def cdyaValue [CommRing K] [Div K] (same : Bool) (A B : Vec6 K) (p : Fin 6 × Fin 6) : K :=
  let i := (pairs p.1).1
  let j := (pairs p.1).2
  let k := (pairs p.2).1
  let l := (pairs p.2).2
  let ik := tab i k
  let jl := tab j l
  let il := tab i l
  let kj := tab k j
  let values := A ik * B jl + A il * B kj
  if same = false then
    (values + (B ik * A jl + B il * A kj)) / 4
  else
    values / 2

/-- `cdya(A, B, out)`; lines 913-947.  `out = none` allocates zeros.  For every pair of
`triu_indices(6)` first `out[ij, kl]`, then `out[kl, ij]` is assigned (the order of a
chained assignment), `ij = b[i, j]`, `kl = b[k, l]`. -/
def cdyaOut [CommRing K] [Div K] (same : Bool) (A B : Vec6 K) (out : Option (Mat6 K)) : Mat6 K :=
  let out := out.getD fun _ _ => 0
  let ij := fun p : Fin 6 × Fin 6 => tab (pairs p.1).1 (pairs p.1).2
  let kl := fun p : Fin 6 × Fin 6 => tab (pairs p.2).1 (pairs p.2).2
  let ws1 := triu6.map fun p => (ij p, kl p, cdyaValue same A B p)
  let ws2 := triu6.map fun p => (kl p, ij p, cdyaValue same A B p)
  writes (writes out ws1) ws2

/-- `cdya(A, B)` as called by the library with two different objects. -/
def cdya [CommRing K] [Div K] (A B : Vec6 K) : Mat6 K := cdyaOut false A B none

/-- `cdya(A, A)` with the same object passed twice (the `A is B` shortcut). -/
def cdyaSelf [CommRing K] [Div K] (A : Vec6 K) : Mat6 K := cdyaOut true A A none

end Hel

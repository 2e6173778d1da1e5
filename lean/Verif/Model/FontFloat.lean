import Verif.Model.Font
import Verif.Model.F64

/-!
# Model of font/sdf_builder.go:143-268 in float64 arithmetic

Every operation is rounded with `F64.rnd`.  `math.Sqrt` is a parameter; `math.Pow(x, 2)` is the rounded square (Go's
`Pow` multiplies the normalised mantissa with itself once).  The compiler is taken not to fuse `x*y + z` (amd64).
Loops, slices and panics are those of `Model/Font`.
-/
namespace Verif.Font

open F64 (rnd)

/-- `getS` (font/sdf_builder.go:235-237) with `v[k] = vk`, rounded at every operation. -/
def getSF (f : Nat → ℚ) (q vk : Nat) : ℚ :=
  rnd (rnd (rnd (f q + rnd ((q : ℚ) * q)) - rnd (f vk + rnd ((vk : ℚ) * vk))) / rnd (rnd (2 * (q : ℚ)) - rnd (2 * (vk : ℚ))))

/-- The loop popping parabolas (font/sdf_builder.go:239-248); `none`: `k` becomes -1 and `v[k]` panics. -/
def popLoopF (f : Nat → ℚ) (v : Nat → Nat) (z : Nat → ℚ) (q : Nat) : Nat → Option Nat
  | 0 => if getSF f q (v 0) ≤ z 0 then none else some 0
  | k + 1 => if getSF f q (v (k + 1)) ≤ z (k + 1) then popLoopF f v z q k else some (k + 1)

/-- One turn of the first loop (font/sdf_builder.go:234-255). -/
def buildStepF (L : Nat) (f : Nat → ℚ) (st : Nat × (Nat → Nat) × (Nat → ℚ)) (q : Nat) :
    Option (Nat × (Nat → Nat) × (Nat → ℚ)) :=
  match popLoopF f st.2.1 st.2.2 q st.1 with
  | none => none
  | some k =>
    if k + 2 < L then
      some (k + 1, put st.2.1 (k + 1) q, put (put st.2.2 (k + 1) (getSF f q (st.2.1 k))) (k + 2) INF)
    else none

/-- The value written for pixel `q` from site `v` (font/sdf_builder.go:266). -/
def costF (f : Nat → ℚ) (q v : Nat) : ℚ :=
  rnd (rnd (rnd ((q : ℚ) - v) * rnd ((q : ℚ) - v)) + f v)

/-- One turn of the second loop (font/sdf_builder.go:257-267). -/
def scanStepF (L : Nat) (f : Nat → ℚ) (v : Nat → Nat) (z : Nat → ℚ) (st : Nat × (Nat → ℚ)) (q : Nat) :
    Option (Nat × (Nat → ℚ)) :=
  match advance z q (L - (st.1 + 1)) st.1 with
  | none => none
  | some k => some (k, put st.2 q (costF f q (v k)))

/-- `edt1d` (font/sdf_builder.go:229-268). -/
def edt1dF (L n : Nat) (b : Bufs ℚ) : Option (Bufs ℚ) :=
  if 1 < L then
    match (List.range' 1 (n - 1)).foldlM (buildStepF L b.f) (0, put b.v 0 0, put (put b.z 0 (-INF)) 1 INF) with
    | none => none
    | some (_, v, z) =>
      match (List.range n).foldlM (scanStepF L b.f v z) (0, b.d) with
      | none => none
      | some (_, d) => some ⟨b.f, d, v, z⟩
  else none

/-- One column (font/sdf_builder.go:203-213). -/
def colStepF (L h : Nat) (st : (Nat → Nat → ℚ) × Bufs ℚ) (x : Nat) : Option ((Nat → Nat → ℚ) × Bufs ℚ) :=
  match edt1dF L h { st.2 with f := fun y => if y < h then st.1 x y else st.2.f y } with
  | none => none
  | some b => some (fun x' y => if x' = x ∧ y < h then b.d y else st.1 x' y, b)

/-- One row (font/sdf_builder.go:215-225). -/
def rowStepF (sq : ℚ → ℚ) (L w : Nat) (st : (Nat → Nat → ℚ) × Bufs ℚ) (y : Nat) :
    Option ((Nat → Nat → ℚ) × Bufs ℚ) :=
  match edt1dF L w { st.2 with f := fun x => if x < w then st.1 x y else st.2.f x } with
  | none => none
  | some b => some (fun x y' => if y' = y ∧ x < w then sq (b.d x) else st.1 x y', b)

/-- `edt` (font/sdf_builder.go:202-226). -/
def edtF (sq : ℚ → ℚ) (L w h : Nat) (data : Nat → Nat → ℚ) (b : Bufs ℚ) : Option ((Nat → Nat → ℚ) × Bufs ℚ) :=
  match (List.range w).foldlM (colStepF L h) (data, b) with
  | none => none
  | some st => (List.range h).foldlM (rowStepF sq L w) st

/-- The seed for the distance to the shape (font/sdf_builder.go:162-177). -/
def outerSeedF (a : Nat) : ℚ :=
  let alpha : ℚ := rnd ((a : ℚ) / 65535)
  if alpha ≠ 1 then (if alpha = 0 then INF else rnd (max 0 (rnd (1 / 2 - alpha)) * max 0 (rnd (1 / 2 - alpha)))) else 0

/-- The seed for the distance to the background (font/sdf_builder.go:162-178). -/
def innerSeedF (a : Nat) : ℚ :=
  let alpha : ℚ := rnd ((a : ℚ) / 65535)
  if alpha ≠ 1 then (if alpha = 0 then 0 else rnd (max 0 (rnd (alpha - 1 / 2)) * max 0 (rnd (alpha - 1 / 2)))) else INF

/-- The byte of a pixel (font/sdf_builder.go:190-194) from the two distances; `math.Round` is exact. -/
def sdfByteF (radius cutoff o i : ℚ) : Nat :=
  (max 0 (min 255 (Style.roundK (rnd (255 - rnd (255 * rnd (rnd (rnd (o - i) / radius) + cutoff))))))).toNat

/-- `CalcSDF` (font/sdf_builder.go:145-199) in float64. -/
def calcSDFF (sq : ℚ → ℚ) (w h : Nat) (alpha : Nat → Nat → Nat) (radius cutoff : ℚ) : Option (Nat → Nat → Nat) :=
  match edtF sq (w * h) w h (fun x y => outerSeedF (alpha x y)) ⟨fun _ => 0, fun _ => 0, fun _ => 0, fun _ => 0⟩ with
  | none => none
  | some (o, b) =>
    match edtF sq (w * h) w h (fun x y => innerSeedF (alpha x y)) b with
    | none => none
    | some (i, _) => some fun x y => sdfByteF radius cutoff (o x y) (i x y)

end Verif.Font

import Verif.Props.MvtBulkLonLat
import Verif.Props.MvtTileFloat

/-!
# C80: written tiles read with `ReadTile` and `ReadRawTile`, in float64
-/
namespace Verif.MvtLL
open Verif.Go Verif.Pbf Verif.Mvt Verif.MvtProj Verif.Tid Verif.Tid.Float Verif.MvtProj.Float

/-- **C80.** The same tiles read with `ReadTile`: layers of one tile, no feature without id after one with an id. Each feature comes back with id, properties and the
property `layer`, every position moved to a grid point computed in float64 and read back in float64 (see `C80_position`). -/
theorem C80_readTile (P : Proto) (hP : P = mapboxProto ∨ P = lkProto) (nc : NumCodec) (hnc : nc.Law) (M : MathExp) (junk : ℚ → Int)
    (hj : ∀ v, IsI32 (junk v)) (t : TileID) (ls : List (Config × List (GeoFeatureOf (ℚ × ℚ))))
    (hls : ∀ x ∈ ls, LayerGoodF M.toMathLib junk x.1 x.2 ∧ x.1.tile = t)
    (bs : List Bytes) (hb : List.Forall₂ (fun x b => writeLayerF P nc M.toMathLib junk x.1 x.2 = some b) ls bs)
    (hlen : bs.flatten.length ≤ 2 ^ 32) (hid : ∀ x ∈ ls, IdsKept x.2) (n : Nat) (hn : bs.flatten.length + 5 < n) :
    ∃ oss : List (List OutFeature), readTile P nc bs.flatten true true 0 n = .ok oss.flatten ∧
      List.Forall₂ (fun (x : Config × List (GeoFeatureOf (ℚ × ℚ))) os => List.Forall₂ (fun f o =>
        BulkIs x.1.name (ReadsAt (x.1.gridF M.toMathLib junk) (lonLatF M t x.1.ext)) f (outWith (lonLatF M t) o)) x.2 os) ls oss :=
  bulk_at P hP nc hnc (fun c => c.gridF M.toMathLib junk) (fun c => c.gridF M.toMathLib junk) (lonLatF M t) ls
    (fun x hx => (hls x hx).1.at hj) bs hb hlen hid true 0 le_rfl n hn

/-- **C80.** The same tiles read with `ReadRawTile`: positions are the grid points themselves. -/
theorem C80_readRawTile (P : Proto) (hP : P = mapboxProto ∨ P = lkProto) (nc : NumCodec) (hnc : nc.Law) (M : MathExp) (junk : ℚ → Int)
    (hj : ∀ v, IsI32 (junk v)) (ls : List (Config × List (GeoFeatureOf (ℚ × ℚ))))
    (hls : ∀ x ∈ ls, LayerGoodF M.toMathLib junk x.1 x.2)
    (bs : List Bytes) (hb : List.Forall₂ (fun x b => writeLayerF P nc M.toMathLib junk x.1 x.2 = some b) ls bs)
    (hlen : bs.flatten.length ≤ 2 ^ 32) (hid : ∀ x ∈ ls, IdsKept x.2) (n : Nat) (hn : bs.flatten.length + 5 < n) :
    ∃ oss : List (List OutFeature), readTile P nc bs.flatten true false 1 n = .ok oss.flatten ∧
      List.Forall₂ (fun (x : Config × List (GeoFeatureOf (ℚ × ℚ))) os => List.Forall₂ (fun f o =>
        BulkIs x.1.name (ReadsAt (x.1.gridF M.toMathLib junk) id) f (outRaw o)) x.2 os) ls oss :=
  bulk_at P hP nc hnc (fun c => c.gridF M.toMathLib junk) (fun c => c.gridF M.toMathLib junk) (fun _ p => p) ls
    (fun x hx => (hls x hx).at hj) bs hb hlen hid false 1 (by norm_num) n hn

/-- A layer with ids that meets the hypotheses, for any `math`. -/
theorem C80_bulk_example (M : MathLib) (junk : ℚ → Int) :
    let fs : List (GeoFeatureOf (ℚ × ℚ)) := [⟨.int 7, [([107], .str [120])], .lineString [(1, 1), (20, 30), (20, 30)]⟩]
    LayerGoodF M junk (newConfig [97] ⟨4, 3, 3⟩) fs ∧ IdsKept fs := by
  intro fs
  refine ⟨?_, by simp [fs, IdsKept]⟩
  apply C80_default_good
  intro f hf
  simp only [fs, List.mem_singleton] at hf
  subst hf
  refine ⟨by show IsI64 7; unfold IsI64; omega, ?_, by simp, by norm_num⟩
  intro k v h
  simp only [List.mem_singleton, Prod.mk.injEq] at h
  rw [h.2]
  exact ⟨by show 1 < _; omega, by simp⟩

end Verif.MvtLL

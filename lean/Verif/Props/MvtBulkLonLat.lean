import Verif.Model.MvtBulkLonLat
import Verif.Props.MvtLonLat
import Verif.Props.MvtRead

/-!
# C72: written tiles read with `ReadTile` and `ReadRawTile`
-/
namespace Verif.MvtLL
open Verif.Go Verif.Pbf Verif.Mvt Verif.MvtProj Verif.Tid

/-- The feature `x` returned by a bulk reader has the id of `f` (none if `f` has none or 0), its properties and then the property `layer` with the layer's name, and a
geometry that `f`'s should become (`reads`). -/
def BulkIs {F G : Type} (name : Bytes) (reads : Geo F → Geo G → Prop) (f : GeoFeatureOf F)
    (x : Option (Option Int × List (Bytes × Val) × Geo G)) : Prop :=
  ∃ props g, x = some (if expId f.id ≠ 0 then some (expId f.id) else none, props ++ [("layer".toList.map Char.toNat, .str name)], g) ∧
    List.Forall₂ (fun (p : Bytes × GoVal) (y : Bytes × Val) => y.1 = p.1 ∧ ReadAs p.2 y.2) f.props props ∧ reads f.geo g

/-- No feature without id (or with id 0) follows one with an id: for instance, all features have one, or none has. -/
def IdsKept {F : Type} (fs : List (GeoFeatureOf F)) : Prop := fs.Pairwise fun f g => expId g.id = 0 → expId f.id = 0

theorem asCall_expId {F : Type} (f : GeoFeatureOf F) (w : Nat × List Nat) : (asCall f w).expId = expId f.id := by
  unfold asCall expId Call.expId
  cases f.id <;> rfl

/-- The round trip of a tile through the bulk readers, for any functions to (`sp`, as `cl`) and from (`pl`) the grid. -/
theorem bulk_at {F G : Type} [DecidableEq F] (P : Proto) (hP : P = mapboxProto ∨ P = lkProto) (nc : NumCodec) (hnc : nc.Law)
    (sp cl : Config → F → Pt) (pl : Int → Pt → G)
    (ls : List (Config × List (GeoFeatureOf F))) (hls : ∀ x ∈ ls, LayerAt (sp x.1) (cl x.1) x.1 x.2) (bs : List Bytes)
    (hb : List.Forall₂ (fun x b => writeLayerWith P nc (sp x.1) x.1 x.2 = some b) ls bs) (hlen : bs.flatten.length ≤ 2 ^ 32)
    (hid : ∀ x ∈ ls, IdsKept x.2) (aw : Bool) (skip : Int) (hskip : 0 ≤ skip)
    (n : Nat) (hn : bs.flatten.length + 5 < n) :
    ∃ oss : List (List OutFeature), readTile P nc bs.flatten true aw skip n = .ok oss.flatten ∧
      List.Forall₂ (fun (x : Config × List (GeoFeatureOf F)) os => List.Forall₂ (fun f o =>
        BulkIs x.1.name (ReadsAt (cl x.1) (pl x.1.ext)) f (outWith pl o)) x.2 os) ls oss := by
  obtain ⟨T, hT, hrelT⟩ := tile_at P hP nc hnc sp cl (fun _ => pl) ls hls bs hb hlen true (Or.inl rfl) n hn
  have hex : ∃ (wls : List (List (Nat × List Nat) × LayerWrite)), bs = wls.map (fun y => flush P nc y.2) ∧
      List.Forall₂ (fun (x : Config × List (GeoFeatureOf F)) (y : List (Nat × List Nat) × LayerWrite) =>
        Written P nc ⟨x.1.name, x.1.extent, x.1.version, List.zipWith asCall x.2 y.1, false⟩ y.2 ∧
        List.Forall₂ (fun f w => w.2 ≠ [] ∧ geoWords (sp x.1) f.geo = some w ∧
          ∃ gm o, loadGeometry w.1 w.2 = some gm ∧ projectGeomWith (pl x.1.ext) gm = some o ∧
          ReadsAt (cl x.1) (pl x.1.ext) f.geo o) x.2 y.1) ls wls := by
    clear hn hT hrelT hid
    induction hb with
    | nil => exact ⟨[], rfl, .nil⟩
    | @cons x b ls bs h _ ih =>
      rw [List.flatten_cons, List.length_append] at hlen
      obtain ⟨l, ws, e1, e2, e3⟩ := written_of P nc (sp x.1) (cl x.1) (pl x.1.ext) x.1 x.2 (hls x (by simp)) b h (by omega)
      obtain ⟨wls, e4, e5⟩ := ih (fun y hy => hls y (by simp [hy])) (by omega)
      exact ⟨(ws, l) :: wls, by rw [List.map_cons, ← e1, e4], .cons ⟨e2, e3⟩ e5⟩
  obtain ⟨wls, rfl, hrel⟩ := hex
  have hflat : (wls.map (fun y => flush P nc y.2)).flatten = (wls.map (·.2)).flatMap (flush P nc) := by
    rw [List.flatMap_def, List.map_map]; rfl
  rw [hflat] at hT hrelT hn ⊢
  clear hlen hb hls hflat
  let ins : List LayerIn := List.zipWith (fun x y => ⟨x.1.name, x.1.extent, x.1.version, List.zipWith asCall x.2 y.1, false⟩) ls wls
  have hW : List.Forall₂ (Written P nc) ins (wls.map (·.2)) := by
    clear hrelT hT hn hid
    induction hrel with
    | nil => exact .nil
    | cons h _ ih => exact .cons h.1 ih
  have hfull : ∀ w ∈ ins, ∀ c ∈ w.calls, c.isAdd = true →
      c.expType ≠ 0 ∧ c.expGeom ≠ [] ∧ loadGeometry c.expType c.expGeom ≠ none := by
    clear hrelT hT hn hW hid
    induction hrel with
    | nil => intro w hw; simp [ins] at hw
    | @cons x y ls wls hxy _ ih =>
      intro w hw c hc _
      simp only [ins, List.zipWith_cons_cons, List.mem_cons] at hw
      rcases hw with rfl | hw
      · obtain ⟨i, hi⟩ := List.getElem?_of_mem hc
        rw [List.getElem?_zipWith_eq_some] at hi
        obtain ⟨f, v, hf, hv, rfl⟩ := hi
        obtain ⟨hi1, e1⟩ := List.getElem?_eq_some_iff.mp hf
        obtain ⟨hi2, e2⟩ := List.getElem?_eq_some_iff.mp hv
        have := hxy.2.get (i := i) hi1 hi2
        simp only [List.get_eq_getElem, e1, e2] at this
        obtain ⟨k1, _, gm, o, k2, k3, _⟩ := this
        refine ⟨?_, k1, by simp only [asCall, Call.expType, Call.expGeom]; rw [k2]; simp⟩
        · simp only [asCall, Call.expType]
          intro h0
          rw [h0] at k2
          unfold loadGeometry at k2
          rw [Option.bind_eq_some_iff] at k2
          obtain ⟨z, _, k2⟩ := k2
          simp [buildGeom] at k2
          subst k2
          simp [projectGeomWith] at k3
      · exact ih w hw c hc (by assumption)
  have hids : ∀ w ∈ ins, (w.calls.filter (·.isAdd)).Pairwise fun c d => d.expId = 0 → c.expId = 0 := by
    clear hrelT hT hn hW hfull
    induction hrel with
    | nil => intro w hw; simp [ins] at hw
    | @cons x y ls wls hxy _ ih =>
      intro w hw
      simp only [ins, List.zipWith_cons_cons, List.mem_cons] at hw
      rcases hw with rfl | hw
      · have hx := hid x (by simp)
        simp only
        apply List.Pairwise.filter
        unfold IdsKept at hx
        have hlen := hxy.2.length_eq
        clear hxy hid ih
        generalize x.2 = fs at hx hlen ⊢
        generalize y.1 = vs at hlen ⊢
        induction fs generalizing vs with
        | nil => simp
        | cons f fs ih =>
          cases vs with
          | nil => simp
          | cons v vs =>
            rw [List.pairwise_cons] at hx
            rw [List.zipWith_cons_cons, List.pairwise_cons]
            refine ⟨?_, ih hx.2 vs (by simpa using hlen)⟩
            intro c hc
            obtain ⟨i, hi⟩ := List.getElem?_of_mem hc
            rw [List.getElem?_zipWith_eq_some] at hi
            obtain ⟨g, u, hg, hu, rfl⟩ := hi
            rw [asCall_expId, asCall_expId]
            exact hx.1 g (List.mem_of_getElem? hg)
      · exact ih (fun x hx => hid x (by simp [hx])) w hw
  obtain ⟨t, oss, ht, hread, hoss⟩ := C31_written_tiles P hP nc hnc ins (wls.map (·.2)) hW hfull hids aw skip hskip n hn
  rw [hT] at ht
  obtain rfl : T = t := by simpa using ht
  refine ⟨oss, hread, ?_⟩
  generalize T.layers = Ls at hrelT hoss
  clear hrel hW hfull hids ins hread hT hn hid
  generalize (wls.map (·.2)).flatMap (flush P nc) = B at hrelT hoss
  induction hrelT generalizing oss with
  | nil => cases hoss; exact .nil
  | @cons x L ls Ls hx _ ih =>
    cases hoss with
    | @cons _ os _ oss ho hos =>
    refine .cons ?_ (ih oss hos)
    obtain ⟨hname, hext, _, hf⟩ := hx
    generalize L.features = qs at hf ho
    generalize x.2 = fs at hf ⊢
    induction hf generalizing os with
    | nil => cases ho; exact .nil
    | @cons f q fs qs h1 _ ih2 =>
      cases ho with
      | @cons _ o _ os g1 g2 =>
      refine .cons ?_ (ih2 g2)
      obtain ⟨f1, z, r1, r2, rfl⟩ := g1
      obtain ⟨f2, props, g, s1, s2, s3, s4⟩ := h1
      rw [r1] at s1
      obtain rfl : f1 = f2 := by simpa using s1
      unfold toGeoJSON at r2
      rw [Option.map_eq_some_iff] at r2
      obtain ⟨gm, a1, rfl⟩ := r2
      unfold toGeoJSONWith at s2
      rw [a1, Option.bind_some, Option.map_eq_some_iff] at s2
      obtain ⟨g', b1, b2⟩ := s2
      simp only [Prod.mk.injEq] at b2
      obtain ⟨b2, b3, rfl⟩ := b2
      refine ⟨props, g', ?_, s3, s4⟩
      unfold outWith
      simp only [b1, Option.map_some, b2, b3, hname]
      rfl

/-- **C72.** Write any layers of lon/lat features of one tile with `WriteLayer` (positions on the map, geometries that survive, and no
feature without id after one with an id in its layer) and concatenate the bytes. `ReadTile` for that tile returns the written features, layer by layer in order: same id, same properties
and the property `layer` with the name of the layer, and the same geometry with each position moved to the nearest point of the grid. -/
theorem C72_readTile (P : Proto) (hP : P = mapboxProto ∨ P = lkProto) (nc : NumCodec) (hnc : nc.Law) (junk : ℝ → Int) (t : TileID)
    (ls : List (Config × List GeoFeature)) (hls : ∀ x ∈ ls, LayerGood x.1 x.2 ∧ x.1.tile = t) (bs : List Bytes)
    (hb : List.Forall₂ (fun x b => writeLayer P nc junk x.1 x.2 = some b) ls bs) (hlen : bs.flatten.length ≤ 2 ^ 32)
    (hid : ∀ x ∈ ls, IdsKept x.2) (n : Nat) (hn : bs.flatten.length + 5 < n) :
    ∃ oss : List (List OutFeature), readTile P nc bs.flatten true true 0 n = .ok oss.flatten ∧
      List.Forall₂ (fun (x : Config × List GeoFeature) os => List.Forall₂ (fun f o =>
        BulkIs x.1.name (ReadsAs x.1.extentBool t x.1.ext) f (outLonLat t o)) x.2 os) ls oss := by
  obtain ⟨oss, h1, h2⟩ := bulk_at P hP nc hnc (fun c => singlePoint junk c.cursor) (fun c => cell c.extentBool t c.ext)
    (fun extent p => toLonLat t extent (ptR p)) ls (fun x hx => by
      have := (hls x hx).1.at junk
      rw [(hls x hx).2] at this
      exact this) bs hb hlen hid true 0 le_rfl n hn
  exact ⟨oss, h1, h2⟩

/-- **C72.** `ReadRawTile` returns the same with the geometries on the tile's grid instead of projected ones; the layers may be of any
tiles. -/
theorem C72_readRawTile (P : Proto) (hP : P = mapboxProto ∨ P = lkProto) (nc : NumCodec) (hnc : nc.Law) (junk : ℝ → Int)
    (ls : List (Config × List GeoFeature)) (hls : ∀ x ∈ ls, LayerGood x.1 x.2) (bs : List Bytes)
    (hb : List.Forall₂ (fun x b => writeLayer P nc junk x.1 x.2 = some b) ls bs) (hlen : bs.flatten.length ≤ 2 ^ 32)
    (hid : ∀ x ∈ ls, IdsKept x.2) (n : Nat) (hn : bs.flatten.length + 5 < n) :
    ∃ oss : List (List OutFeature), readTile P nc bs.flatten true false 1 n = .ok oss.flatten ∧
      List.Forall₂ (fun (x : Config × List GeoFeature) os => List.Forall₂ (fun f o =>
        BulkIs x.1.name (ReadsAt (cell x.1.extentBool x.1.tile x.1.ext) id) f (outRaw o)) x.2 os) ls oss :=
  bulk_at P hP nc hnc (fun c => singlePoint junk c.cursor) (fun c => cell c.extentBool c.tile c.ext) (fun _ p => p) ls
    (fun x hx => (hls x hx).at junk) bs hb hlen hid false 1 (by norm_num) n hn

/-- C72, a layer that meets the hypotheses: a line and a point with ids in the world tile. -/
theorem C72_bulk_example :
    let fs : List GeoFeature := [⟨.int 7, [([107], .str [120])], .lineString [(0, 0), (90, 0), (90, 0)]⟩, ⟨.int (-1), [], .point (13, 0)⟩]
    LayerGood (newConfig [97] ⟨0, 0, 0⟩) fs ∧ (newConfig [97] ⟨0, 0, 0⟩).tile = ⟨0, 0, 0⟩ ∧ IdsKept fs := by
  intro fs
  have h := C72_example
  refine ⟨⟨h.grid, h.extent, h.version, ?_⟩, rfl, ?_⟩
  · intro f hf
    simp only [fs, List.mem_cons, List.not_mem_nil, or_false] at hf
    rcases hf with rfl | rfl
    · exact h.feats _ (by simp)
    · have := h.feats ⟨.none, [], .point (13, 0)⟩ (by simp)
      exact ⟨by decide, this.props, this.pos, this.geo⟩
  · simp [fs, IdsKept, expId]

end Verif.MvtLL

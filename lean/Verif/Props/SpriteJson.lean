import Verif.Model.SpriteJson
import Verif.Props.Sprite
import Verif.Props.JsonText

/-!
# C100: the sprite index as JSON
-/
namespace Verif.Sprite
open Verif.Doc Verif.JText Verif.Go

/-- Go `int`s. -/
structure Entry.Valid (e : Entry) : Prop where
  x : IsI64 e.x
  y : IsI64 e.y
  info : ∀ m, e.info = some m → IsI64 m.width ∧ IsI64 m.height ∧ IsI64 m.pixelRatio

/-- What is read back: the name of the texture is not in its entry (it is the key). -/
def Entry.nameless (e : Entry) : Entry := { e with info := e.info.map fun m => { m with name := [] } }

theorem entryR_distinct : entryR.Distinct := by unfold Rec.Distinct; decide +kernel
theorem placeR_distinct : placeR.Distinct := by unfold Rec.Distinct; decide +kernel

/-- **C100.** The entry of a sprite in the index file: one object with the texture's id if it has one, its size, the pixel ratio and its
place on the sheet, all as integers, and nothing else. -/
theorem C100_entry (m : Meta) (x y : Int) : entryC.write ⟨some m, x, y⟩ = some (.obj
    ((match m.id with | none => [] | some s => [("id".toList, .str s)]) ++
      [("width".toList, .num (itoa m.width)), ("height".toList, .num (itoa m.height)), ("pixelRatio".toList, .num (itoa m.pixelRatio)),
       ("x".toList, .num (itoa x)), ("y".toList, .num (itoa y))])) := by
  obtain ⟨i, n, w, h, p⟩ := m
  cases i <;> rfl

theorem enc_touches {m : Meta} {x y : Int} {ms : List (Str × J)} (h : entryR.encAll (m.id, m.width, m.height, m.pixelRatio, x, y, ()) = some ms) :
    ms.any ofMeta = true := by
  have : ("width".toList, J.num (itoa m.width)) ∈ ms := by
    have e := C100_entry m x y
    simp only [Codec.write, entryC, h, Option.map_some, Option.some.injEq, J.obj.injEq] at e
    rw [e]
    simp
  rw [List.any_eq_true]
  refine ⟨_, this, ?_⟩
  unfold ofMeta
  rw [List.any_eq_true]
  exact ⟨"width".toList, by simp, by simp⟩

theorem back_entry {e : Entry} (h : e.Valid) : BackV entryC e e.nameless := by
  obtain ⟨i, x, y⟩ := e
  cases i with
  | none =>
    refine ⟨.obj [("x".toList, .num (itoa x)), ("y".toList, .num (itoa y))], rfl, by simp, ?_⟩
    have e1 : entryR.members (none, 0, 0, 0, 0, 0, ()) [("x".toList, J.num (itoa x)), ("y".toList, J.num (itoa y))] =
        ((none, 0, 0, 0, x, y, ()), true) := by
      have dx : intC.dec 0 (.num (itoa x)) = (x, true) := by simp [intC, parseInt_itoa_10 x h.x]
      have dy : intC.dec 0 (.num (itoa y)) = (y, true) := by simp [intC, parseInt_itoa_10 y h.y]
      rw [members_gather entryR entryR_distinct]
      have vx : valuesOf "x".toList [("x".toList, J.num (itoa x)), ("y".toList, J.num (itoa y))] = [J.num (itoa x)] := rfl
      have vy : valuesOf "y".toList [("x".toList, J.num (itoa x)), ("y".toList, J.num (itoa y))] = [J.num (itoa y)] := rfl
      have v1 : valuesOf "id".toList [("x".toList, J.num (itoa x)), ("y".toList, J.num (itoa y))] = [] := rfl
      have v2 : valuesOf "width".toList [("x".toList, J.num (itoa x)), ("y".toList, J.num (itoa y))] = [] := rfl
      have v3 : valuesOf "height".toList [("x".toList, J.num (itoa x)), ("y".toList, J.num (itoa y))] = [] := rfl
      have v4 : valuesOf "pixelRatio".toList [("x".toList, J.num (itoa x)), ("y".toList, J.num (itoa y))] = [] := rfl
      simp only [entryR, Rec.gather, vx, vy, v1, v2, v3, v4, decAll, dx, dy, Bool.and_self]
    show (entryC.dec ⟨none, 0, 0⟩ (.obj [("x".toList, J.num (itoa x)), ("y".toList, J.num (itoa y))])) = _
    have e2 : [("x".toList, J.num (itoa x)), ("y".toList, J.num (itoa y))].any ofMeta = false := rfl
    simp only [entryC, Option.getD_none, Meta.zero, e1, e2, Option.isSome_none, Bool.or_self]
    rfl
  | some m =>
    obtain ⟨hw, hh, hp⟩ := h.info m rfl
    have hb := back_struct entryR_distinct (v := (m.id, m.width, m.height, m.pixelRatio, x, y, ())) (w := (m.id, m.width, m.height, m.pixelRatio, x, y, ()))
      (by
        refine ⟨?_, by simpa using (back_int hw).back, by simpa using (back_int hh).back, by simpa using (back_int hp).back,
          by simpa using (back_int h.x).back, by simpa using (back_int h.y).back, trivial⟩
        cases hi : m.id with
        | none => simp [ptrC]
        | some s => simpa [ptrC] using (back_ptr_some (back_str s)).back)
    obtain ⟨j, h1, h2, h3⟩ := hb
    refine ⟨j, h1, h2, ?_⟩
    simp only [structC] at h1
    cases he : entryR.encAll (m.id, m.width, m.height, m.pixelRatio, x, y, ()) with
    | none => rw [he] at h1; cases h1
    | some ms =>
      rw [he] at h1
      simp only [Option.map_some, Option.some.injEq] at h1
      subst h1
      have e1 : entryR.members (none, 0, 0, 0, 0, 0, ()) ms = ((m.id, m.width, m.height, m.pixelRatio, x, y, ()), true) := h3
      show (entryC.dec ⟨none, 0, 0⟩ (.obj ms)) = _
      simp only [entryC, Option.getD_none, Meta.zero, e1, enc_touches he, Option.isSome_none, Bool.false_or, if_true]
      rfl

theorem neat_entry (e : Entry) : Neat entryC e 1 := by
  obtain ⟨i, x, y⟩ := e
  cases i with
  | none =>
    have := neat_struct (r := placeR) (v := (x, y, ())) (k := 0) ⟨neat_int _ _, neat_int _ _, trivial⟩
    exact this
  | some m =>
    have := neat_struct (r := entryR) (v := (m.id, m.width, m.height, m.pixelRatio, x, y, ())) (k := 0)
      ⟨neat_ptr fun s _ => neat_str s 0, neat_int _ _, neat_int _ _, neat_int _ _, neat_int _ _, neat_int _ _, trivial⟩
    exact this

/-- **C100.** An index that is written as JSON text and read again is the same index, but for the names inside the entries. -/
theorem C100_roundtrip (l : List (Str × Option Entry)) (hs : Sorted l) (hv : ∀ k e, (k, some e) ∈ l → e.Valid) :
    ∃ text, marshal indexC (some l) = some text ∧
      readAll indexC text = some (some (l.map fun p => (p.1, p.2.map Entry.nameless))) := by
  refine back_text_all (BackV.back (back_map_some (f := Option.map Entry.nameless) ?_ hs)) ?_
  · intro p hp
    refine back_ptr fun e he => back_entry (hv p.1 e ?_)
    rw [← he]; exact hp
  · exact (neat_map (k := 1) fun m _ p _ => neat_ptr fun e _ => neat_entry e).mono (by norm_num)

/-- The rectangle an entry of the index describes. -/
def Entry.rect (e : Entry) : Rect := ⟨e.x, e.y, (e.info.getD .zero).width, (e.info.getD .zero).height⟩

/-- **C100.** The index file of a generated sprite, written as text and read by a client: it has the names of the textures, each texture's
entry has its id, its scaled size and the pixel ratio, every rectangle lies on the sheet and no two of them share a pixel. -/
theorem C100_index (sc : Texture → Int × Int) (ratio : Int) (textures : List Texture) (set : SpriteMap) (W H : Int)
    (good : GoodSheet sc ratio textures set W H) (hw : IsI64 W) (hh : IsI64 H) (hr : IsI64 ratio)
    (id : String → Option Str) (names : List String) (hs : names.Pairwise fun a b => a.toList < b.toList)
    (hn : ∀ k, k ∈ names ↔ k ∈ textures.map Texture.name) :
    ∃ text ix, marshal indexC (some (indexOf id set names)) = some text ∧ readAll indexC text = some (some ix) ∧
      ix.map Prod.fst = names.map String.toList ∧
      (∀ t ∈ textures, ∃ x y, (t.name.toList, some ⟨some ⟨id t.name, [], (sc t).1, (sc t).2, ratio⟩, x, y⟩) ∈ ix) ∧
      (∀ p ∈ ix, ∃ e, p.2 = some e ∧ e.rect.Within W H) ∧
      ix.Pairwise fun p q => ∀ e f, p.2 = some e → q.2 = some f → e.rect.Disjoint f.rect := by
  have hset : ∀ k ∈ names, ∃ t ∈ textures, t.name = k ∧ ∃ x y, set k = some ⟨(sc t).1, (sc t).2, ratio, x, y, t⟩ := by
    intro k hk
    obtain ⟨t, ht, rfl⟩ := List.mem_map.mp ((hn k).mp hk)
    obtain ⟨x, y, h⟩ := good.entry t ht
    exact ⟨t, ht, rfl, x, y, h⟩
  have hvalid : ∀ k t, set k = some t → t.pixelRatio = ratio → (entryOf id k t).Valid := by
    intro k t h hp
    obtain ⟨h1, h2, h3, h4, h5, h6⟩ := good.within k t h
    simp only [TexSprite.rect] at h1 h2 h3 h4 h5 h6
    unfold IsI64 at hw hh
    refine ⟨⟨by simp only [entryOf]; omega, by simp only [entryOf]; omega⟩, ⟨by simp only [entryOf]; omega, by simp only [entryOf]; omega⟩, ?_⟩
    rintro m e
    cases e
    exact ⟨⟨by simp only; omega, by simp only; omega⟩, ⟨by simp only; omega, by simp only; omega⟩, by simp only [hp]; exact hr⟩
  have hsort : Sorted (indexOf id set names) := by
    unfold Sorted indexOf
    rw [List.pairwise_map]
    exact hs
  obtain ⟨text, h1, h2⟩ := C100_roundtrip (indexOf id set names) hsort (by
    intro k e he
    unfold indexOf at he
    obtain ⟨k', hk', e'⟩ := List.mem_map.mp he
    obtain ⟨t, _, _, x, y, hst⟩ := hset k' hk'
    simp only [hst, Option.map_some, Prod.mk.injEq, Option.some.injEq] at e'
    obtain ⟨_, rfl⟩ := e'
    exact hvalid k' _ hst rfl)
  refine ⟨text, _, h1, h2, ?_, ?_, ?_, ?_⟩
  · simp [indexOf, Function.comp_def]
  · intro t ht
    obtain ⟨x, y, h⟩ := good.entry t ht
    refine ⟨x, y, ?_⟩
    rw [List.mem_map]
    refine ⟨(t.name.toList, (set t.name).map (entryOf id t.name)), ?_, by rw [h]; rfl⟩
    exact List.mem_map_of_mem (f := fun k : String => (k.toList, (set k).map (entryOf id k)))
      ((hn t.name).mpr (List.mem_map_of_mem ht))
  · intro p hp
    obtain ⟨q, hq, rfl⟩ := List.mem_map.mp hp
    obtain ⟨k, hk, rfl⟩ := List.mem_map.mp hq
    obtain ⟨t, _, _, x, y, hst⟩ := hset k hk
    refine ⟨_, by simp only [hst, Option.map_some]; rfl, ?_⟩
    exact good.within k _ hst
  · unfold indexOf
    rw [List.pairwise_map, List.pairwise_map]
    refine hs.imp_of_mem ?_
    intro a b ha hb hab e f he hf
    obtain ⟨t, _, _, x, y, hst⟩ := hset a ha
    obtain ⟨t', _, _, x', y', hst'⟩ := hset b hb
    have hne : a ≠ b := by rintro rfl; exact List.lt_irrefl _ hab
    simp only [hst, hst', Option.map_some, Option.some.injEq] at he hf
    subst he; subst hf
    exact good.disjoint a b _ _ hne hst hst'

/-- **C100.** A member the entry does not know changes nothing, and an entry without any member of the texture's own has none. -/
theorem C100_unknown (old : Entry) (ms : List (Str × J)) (k : Str) (j : J) (hk : ∀ n ∈ entryR.keys, fold n ≠ fold k) :
    entryC.dec old (.obj (ms ++ [(k, j)])) = entryC.dec old (.obj ms) := by
  have hm : ∀ v, entryR.members v (ms ++ [(k, j)]) = entryR.members v ms := by
    intro v
    rw [members_gather entryR entryR_distinct, members_gather entryR entryR_distinct]
    induction ms generalizing v with
    | nil => rw [List.nil_append, gather_foreign entryR v (k, j) hk, gather_nil]
    | cons m ms ih =>
      rw [List.cons_append, gather_cons entryR v m (ms ++ [(k, j)]), gather_cons entryR v m ms, ih]
  have ha : (ms ++ [(k, j)]).any ofMeta = ms.any ofMeta := by
    rw [List.any_append]
    have : ofMeta (k, j) = false := by
      unfold ofMeta
      rw [List.any_eq_false]
      intro n hn
      have : n ∈ entryR.keys := by
        simp only [List.mem_cons, List.not_mem_nil, or_false] at hn
        rcases hn with rfl | rfl | rfl | rfl <;> simp [entryR, Rec.keys]
      simpa using hk n this
    simp [this]
  simp only [entryC, hm, ha]

/-- The hypotheses of `C100_index` hold of a sprite that `GenerateSprite` makes. -/
example : ∃ set, generateSprite (scaleTo 1) 1 [⟨"a", 1, 1, 1⟩, ⟨"b", 2, 2, 1⟩] [⟨"b", 2, 2⟩, ⟨"a", 1, 1⟩] true = some (set, some (3, 2)) ∧
    GoodSheet (scaleTo 1) 1 [⟨"a", 1, 1, 1⟩, ⟨"b", 2, 2, 1⟩] set 3 2 ∧ IsI64 3 ∧ IsI64 2 ∧
    ["a", "b"].Pairwise (fun a b => a.toList < b.toList) := by
  obtain ⟨set, W, H, h1, h2, _⟩ := C15_generateSprite (scaleTo 1) 1 [⟨"a", 1, 1, 1⟩, ⟨"b", 2, 2, 1⟩] [⟨"b", 2, 2⟩, ⟨"a", 1, 1⟩]
    (by decide) (by decide) ⟨by decide, by simp [less]; decide⟩
  have e : (generateSprite (scaleTo 1) 1 [⟨"a", 1, 1, 1⟩, ⟨"b", 2, 2, 1⟩] [⟨"b", 2, 2⟩, ⟨"a", 1, 1⟩] true).bind Prod.snd =
    some (3, 2) := by decide
  rw [h1] at e
  simp only [Option.bind_some, Option.some.injEq, Prod.mk.injEq] at e
  obtain ⟨rfl, rfl⟩ := e
  exact ⟨set, h1, h2, by decide, by decide, by decide⟩

/-- Two textures, one with an id: the text of the index and what is read from it. -/
example : ((marshal indexC (some [("a".toList, some ⟨some ⟨none, "a".toList, 4, 4, 1⟩, 0, 0⟩),
      ("b".toList, some ⟨some ⟨some "i".toList, "b".toList, 3, 4, 1⟩, 4, 0⟩)])).map String.ofList) =
    some "{\"a\":{\"width\":4,\"height\":4,\"pixelRatio\":1,\"x\":0,\"y\":0},\"b\":{\"id\":\"i\",\"width\":3,\"height\":4,\"pixelRatio\":1,\"x\":4,\"y\":0}}" := by
  decide +kernel

end Verif.Sprite

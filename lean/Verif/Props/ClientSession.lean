import Verif.Spec.ClientSession
import Verif.Props.Client
import Verif.Props.JsonBytes
import Verif.Proof.Strconv

/-!
# C99: whole calls of the API client
-/
namespace Verif.Client

open Verif.Doc

/-! ### What is sent -/

instance (b : Byte) (n : Nat) : Decidable (HexByte b n) := by unfold HexByte; infer_instance
instance (b : Byte) : Decidable (PathChar b) := by unfold PathChar; infer_instance
instance (b : Byte) : Decidable (QueryChar b) := by unfold QueryChar; infer_instance

theorem decodes_byte (b : Byte) {e s : Bytes} (h : Decodes e s) : Decodes (escPathByte b ++ e) (b :: s) := by
  by_cases hb : pathByte b = true
  · have h1 : ∀ b : Byte, pathByte b = true → b.val ≠ 37 := by decide +kernel
    rw [escPathByte, if_pos hb]
    exact .plain (h1 b hb) h
  · rw [escPathByte, if_neg hb]
    have h1 : ∀ b : Byte, HexByte (hexDigit (b.val / 16)) (b.val / 16) ∧ HexByte (hexDigit (b.val % 16)) (b.val % 16) := by decide +kernel
    exact .pct (h1 b).1 (h1 b).2 (by omega) h

theorem decodes_path (p : Bytes) : Decodes (p.flatMap escPathByte) p := by
  induction p with
  | nil => exact .nil
  | cons b p ih => exact decodes_byte b ih

theorem path_bytes : ∀ c : Byte, ((escPathByte c).all fun b => decide (PathChar b)) = true := by decide +kernel

theorem query_bytes : ∀ c : Byte, ((escByte c).all fun b => decide (QueryChar b)) = true := by decide +kernel

theorem star_ok : PathChar 42 := by decide +kernel

theorem amp_ok : QueryChar 38 := by decide +kernel

theorem eq_ok : QueryChar 61 := by decide +kernel

theorem escaped_ok (p : Bytes) : Decodes (escapedPath p) p ∧ ∀ b ∈ escapedPath p, PathChar b := by
  unfold escapedPath
  split
  · rename_i h
    have e : lit "*" = [42] := by decide +kernel
    rw [h, e]
    refine ⟨.plain (by decide) .nil, fun b hb => ?_⟩
    rw [List.mem_singleton] at hb
    rw [hb]
    exact star_ok
  · refine ⟨decodes_path p, fun b hb => ?_⟩
    rw [List.mem_flatMap] at hb
    obtain ⟨c, -, hc⟩ := hb
    exact of_decide_eq_true (List.all_eq_true.1 (path_bytes c) b hc)

theorem mem_intercalate {sep b : Byte} : ∀ {ps : List Bytes}, b ∈ List.intercalate [sep] ps → b = sep ∨ ∃ p ∈ ps, b ∈ p
  | [], h => by simp [List.intercalate] at h
  | [p], h => by rw [intercalate_one] at h; exact .inr ⟨p, by simp, h⟩
  | p :: p' :: ps, h => by
    rw [intercalate_cons, List.mem_append, List.mem_cons] at h
    rcases h with h | h | h
    · exact .inr ⟨p, by simp, h⟩
    · exact .inl h
    · rcases mem_intercalate h with h | ⟨x, hx, h⟩
      · exact .inl h
      · exact .inr ⟨x, by simp [hx], h⟩

theorem encode_chars (q : Values) : ∀ b ∈ q.encode, QueryChar b := by
  intro b hb
  have h2 : ∀ s, b ∈ escape s → QueryChar b := by
    intro s hs
    rw [escape, List.mem_flatMap] at hs
    obtain ⟨c, -, hc⟩ := hs
    exact of_decide_eq_true (List.all_eq_true.1 (query_bytes c) b hc)
  rcases mem_intercalate hb with rfl | ⟨p, hp, hb⟩
  · exact amp_ok
  · rw [List.mem_map] at hp
    obtain ⟨e, -, rfl⟩ := hp
    rw [List.mem_append, List.mem_cons] at hb
    rcases hb with h | rfl | h
    · exact h2 _ h
    · exact eq_ok
    · exact h2 _ h

theorem auth_chars (token : Bytes) (u : Url) : (addAuthentication token u).rawQuery ≠ [] ∧
    ∀ b ∈ (addAuthentication token u).rawQuery, QueryChar b := by
  refine ⟨fun h => ?_, encode_chars _⟩
  have h1 := (C48_authentication token u).2.1
  rw [h] at h1
  have : (parseQuery []).get (lit "access_token") = [] := rfl
  rw [this] at h1
  simp at h1

theorem auth_asks (token path query : Bytes) : AsksFor (addAuthentication token ⟨address path, query⟩) path :=
  ⟨⟨escapedPath path, rfl, (escaped_ok path).1, (escaped_ok path).2⟩, auth_chars _ _⟩

theorem loop_head {α : Type} (parse : Bytes → Option Url) (token : Bytes) (srv : Server α) (n : Nat) (u : Url) :
    (listLoop parse token srv (n + 1) [] [] u).2.head? = some (addAuthentication token u) := by
  have key : ∀ (n : Nat) (all : List α) (hist : List Url) (u : Url), hist ≠ [] →
      (listLoop parse token srv n all hist u).2.head? = hist.head? := by
    intro n
    induction n with
    | zero => intros; rfl
    | succ n ih =>
      intro all hist u hh
      obtain ⟨x, xs, rfl⟩ := List.exists_cons_of_ne_nil hh
      rw [listLoop]
      split
      · simp
      · split
        · simp
        · simp
        · rw [ih _ _ _ (by simp)]; simp
  rw [listLoop]
  simp only [List.nil_append]
  split
  · simp
  · split
    · simp
    · simp
    · rw [key _ _ _ _ (by simp)]; simp

theorem auth_param (token : Bytes) (u : Url) (k : String) (h : lit k ≠ lit "access_token") :
    (addAuthentication token u).param k = u.param k := (C48_authentication token u).2.2 _ h

theorem auth_token (token : Bytes) (u : Url) (h : u.param "access_token" = []) : (addAuthentication token u).param "access_token" = [token] := by
  have := (C48_authentication token u).2.1
  unfold Url.param at *
  rw [this, h]; rfl

/-- **C99.** Whatever the user name, the ids and the token are, the first request of each call is a legal address that is decoded to the path
asked for (see C65 for the paths), with a query of legal bytes; nothing can add a query, a fragment, a blank or a line break to it. Every later
request has a query of legal bytes as well. -/
theorem C99_requests (short : ℚ → Str) (parse : Bytes → Option Url) (user token : Bytes) (net : Net) :
    (∀ id draft, AsksFor (styleRequest user token id draft) (getStylePath user id draft)) ∧
    (∀ ids, AsksFor (tileJSONRequest token ids) (tileJSONPath ids)) ∧
    (∀ draft n, ∃ r, (listStyles parse user token net draft (n + 1)).2.head? = some r ∧ AsksFor r (listStylesPath user)) ∧
    (∀ p n, ∃ r, (listTilesets short parse user token net p (n + 1)).2.head? = some r ∧ AsksFor r (listTilesetsPath user)) ∧
    (∀ draft n, ∀ r ∈ (listStyles parse user token net draft n).2, ∀ b ∈ r.rawQuery, QueryChar b) ∧
    (∀ p n, ∀ r ∈ (listTilesets short parse user token net p n).2, ∀ b ∈ r.rawQuery, QueryChar b) := by
  have key : ∀ {α : Type} (srv : Server α) (n : Nat) (all : List α) (hist : List Url) (u : Url),
      (∀ r ∈ hist, ∀ b ∈ r.rawQuery, QueryChar b) → ∀ r ∈ (listLoop parse token srv n all hist u).2, ∀ b ∈ r.rawQuery, QueryChar b := by
    intro α srv n
    induction n with
    | zero => intro all hist u h; exact h
    | succ n ih =>
      intro all hist u h
      have h' : ∀ r ∈ hist ++ [addAuthentication token u], ∀ b ∈ r.rawQuery, QueryChar b := by
        intro r hr
        rw [List.mem_append, List.mem_singleton] at hr
        rcases hr with hr | rfl
        · exact h r hr
        · exact (auth_chars token u).2
      rw [listLoop]
      split
      · exact h'
      · split
        · exact h'
        · exact h'
        · exact ih _ _ _ h'
  exact ⟨fun id draft => auth_asks _ _ _, fun ids => auth_asks _ _ _, fun draft n => ⟨_, loop_head _ _ _ _ _, auth_asks _ _ _⟩,
    fun p n => ⟨_, loop_head _ _ _ _ _, auth_asks _ _ _⟩, fun draft n => key _ _ _ _ _ (by simp), fun p n => key _ _ _ _ _ (by simp)⟩

/-- **C99.** The parameters of the first request of each call: the token, and those that were given. A limit is written in decimal. -/
theorem C99_parameters (short : ℚ → Str) (parse : Bytes → Option Url) (user token : Bytes) (net : Net) :
    (∀ id draft k, (styleRequest user token id draft).param k = if lit k = lit "access_token" then [token] else []) ∧
    (∀ ids k, (tileJSONRequest token ids).param k = if lit k = lit "access_token" then [token] else []) ∧
    (∀ draft n, ∃ r, (listStyles parse user token net draft (n + 1)).2.head? = some r ∧ r.param "access_token" = [token] ∧
      r.param "draft" = [if draft then lit "true" else lit "false"] ∧ r.param "fresh" = [lit "true"]) ∧
    (∀ (p : ListTilesetsParams) n, ∃ r, (listTilesets short parse user token net p (n + 1)).2.head? = some r ∧ r.param "access_token" = [token] ∧
      r.param "type" = p.type.toList ∧ r.param "visibility" = p.visibility.toList ∧ r.param "sortby" = p.sortBy.toList ∧
      (p.limit = none → r.param "limit" = []) ∧
      ∀ m, p.limit = some m → Go.IsI64 m → ∃ s, r.param "limit" = [s] ∧ Go.parseInt (s.map fun b => Char.ofNat b.val) 10 = .ok m) := by
  have one : ∀ (path : Bytes) (k : String), (addAuthentication token ⟨address path, []⟩).param k =
      if lit k = lit "access_token" then [token] else [] := by
    intro path k
    have h0 : ∀ k, (⟨address path, []⟩ : Url).param k = [] := fun k => rfl
    by_cases h : lit k = lit "access_token"
    · rw [if_pos h]
      have := auth_token token ⟨address path, []⟩ (h0 _)
      unfold Url.param at *
      rwa [h]
    · rw [if_neg h, auth_param _ _ _ h, h0]
  refine ⟨fun id draft k => one _ k, fun ids k => one _ k, fun draft n => ⟨_, loop_head _ _ _ _ _, ?_⟩, fun p n => ⟨_, loop_head _ _ _ _ _, ?_⟩⟩
  · obtain ⟨h1, h2, h3⟩ := C65_styles_query draft
    refine ⟨auth_token _ _ ?_, ?_, ?_⟩
    · exact h3 _ (by decide +kernel) (by decide +kernel)
    · rw [auth_param _ _ _ (by decide +kernel)]; exact h1
    · rw [auth_param _ _ _ (by decide +kernel)]; exact h2
  · obtain ⟨h1, h2, h3, h4, h5⟩ := C65_tilesets_query p.printed
    refine ⟨auth_token _ _ (h5 _ (by decide +kernel) (by decide +kernel) (by decide +kernel) (by decide +kernel)), ?_, ?_, ?_, ?_, ?_⟩
    · rw [auth_param _ _ _ (by decide +kernel)]; exact h1
    · rw [auth_param _ _ _ (by decide +kernel)]; exact h2
    · rw [auth_param _ _ _ (by decide +kernel)]; exact h3
    · intro hm
      rw [auth_param _ _ _ (by decide +kernel)]
      refine Eq.trans h4 ?_
      simp [ListTilesetsParams.printed, hm]
    · intro m hm hi
      refine ⟨(Go.itoa m).map fun c => Fin.ofNat 256 c.toNat, ?_, ?_⟩
      · rw [auth_param _ _ _ (by decide +kernel)]
        refine Eq.trans h4 ?_
        simp [ListTilesetsParams.printed, hm]
      · have e : ((Go.itoa m).map fun c => (Fin.ofNat 256 c.toNat : Byte)).map (fun b => Char.ofNat b.val) = Go.itoa m := by
          rw [List.map_map]
          conv_rhs => rw [← List.map_id (Go.itoa m)]
          refine List.map_congr_left fun c hc => ?_
          have : c.toNat < 256 := by
            rcases Go.itoa_mem hc with h | rfl
            · rw [Char.isDigit_iff_toNat] at h
              have : '9'.toNat = 57 := rfl
              omega
            · decide
          simp only [Function.comp, id, Fin.val_ofNat, Nat.mod_eq_of_lt this, Char.ofNat_toNat]
        rw [e]
        exact Go.parseInt_itoa_10 m hi

/-! ### What is returned -/

/-- **C99.** The status of an answer is not looked at: two networks whose answers differ in their statuses only give the same results and see
the same requests. -/
theorem C99_status (short : ℚ → Str) (rnd : ℚ → ℚ) (imp : Nat) (parse : Bytes → Option Url) (user token : Bytes) (net net' : Net)
    (h : ∀ reqs, (net reqs).map (fun r => (r.link, r.body)) = (net' reqs).map (fun r => (r.link, r.body))) :
    (∀ draft n, listStyles parse user token net draft n = listStyles parse user token net' draft n) ∧
    (∀ p n, listTilesets short parse user token net p n = listTilesets short parse user token net' p n) ∧
    (∀ ids, getTileJSON short token net ids = getTileJSON short token net' ids) ∧
    (∀ id draft, getStyle rnd imp user token net id draft = getStyle rnd imp user token net' id draft) := by
  have hr : ∀ {α : Type} (c : Codec (Option (List α))) reqs, reply c (net reqs) = reply c (net' reqs) := by
    intro α c reqs
    have := h reqs
    generalize net reqs = a at this
    generalize net' reqs = b at this
    cases a <;> cases b <;>
      simp only [Option.map_none, Option.map_some, reduceCtorEq, Option.some.injEq, Prod.mk.injEq] at this
    · rfl
    · simp only [reply, this.1, this.2]
  refine ⟨fun draft n => ?_, fun p n => ?_, fun ids => ?_, fun id draft => ?_⟩
  · simp only [listStyles, hr]
  · simp only [listTilesets, hr]
  · unfold getTileJSON
    have := h [tileJSONRequest token ids]
    generalize net [tileJSONRequest token ids] = a at this
    generalize net' [tileJSONRequest token ids] = b at this
    cases a <;> cases b <;>
      simp only [Option.map_none, Option.map_some, reduceCtorEq, Option.some.injEq, Prod.mk.injEq] at this
    · rfl
    · simp only [this.2]
  · unfold getStyle
    have := h [styleRequest user token id draft]
    generalize net [styleRequest user token id draft] = a at this
    generalize net' [styleRequest user token id draft] = b at this
    cases a <;> cases b <;>
      simp only [Option.map_none, Option.map_some, reduceCtorEq, Option.some.injEq, Prod.mk.injEq] at this
    · rfl
    · simp only [this.2]

theorem begins_decode {body : List Nat} {j : J} (h : Begins body j) : JText.decode (Utf8.text body) = some j := by
  obtain ⟨s, w, t, r, h1, h2, h3, h4, h5, h6⟩ := h
  rw [Utf8.text_eq_iff.2 h1]
  exact (JText.C95_first s j).2 w t r h2 h3 h4 h5 h6

theorem read_others (short : ℚ → Str) : ∀ ms : List (Str × J), (∀ m ∈ ms, ∀ n ∈ tileJSONNames, fold n.toList ≠ fold m.1) →
    (tileJSONC short).read (.obj ms) = (tileJSONC short).read (.obj [])
  | [], _ => rfl
  | (k, j) :: ms, h => by
    have := (C94_lenient short false).1.2.1 [] ms k j (h (k, j) (by simp))
    rw [List.nil_append, List.nil_append] at this
    rw [this]
    exact read_others short ms fun m hm => h m (by simp [hm])

/-- **C99.** So an answer that reports a failure as a JSON object, such as `{"message":"Not Found"}`, makes `GetTileJSON` return an empty value
and no error, while `ListStyles` and `ListTilesets` return an error. -/
theorem C99_error_pages (short : ℚ → Str) (parse : Bytes → Option Url) (user token : Bytes) (net : Net) (ms : List (Str × J)) :
    (∀ ids r, net [tileJSONRequest token ids] = some r → Begins r.body (.obj ms) →
      (∀ m ∈ ms, ∀ n ∈ tileJSONNames, fold n.toList ≠ fold m.1) → getTileJSON short token net ids = ((tileJSONC short).zero, true)) ∧
    (∀ draft n r, (∀ reqs, net reqs = some r) → Begins r.body (.obj ms) → (listStyles parse user token net draft (n + 1)).1 = .error) ∧
    (∀ p n r, (∀ reqs, net reqs = some r) → Begins r.body (.obj ms) → (listTilesets short parse user token net p (n + 1)).1 = .error) := by
  refine ⟨fun ids r h1 h2 h3 => ?_, fun draft n r h1 h2 => ?_, fun p n r h1 h2 => ?_⟩
  · unfold getTileJSON JBytes.tileJSONBody JText.tileJSONBody JText.readBody
    simp only [h1, begins_decode h2, read_others short ms h3]
    rfl
  · unfold listStyles
    rw [listLoop]
    have : reply (sliceC listStyleC) (some r) = .failed := by
      unfold reply JBytes.readBody JText.readBody
      simp only [begins_decode h2]
      rfl
    simp only [h1, this]
  · unfold listTilesets
    rw [listLoop]
    have : reply (sliceC (tilesetC short)) (some r) = .failed := by
      unfold reply JBytes.readBody JText.readBody
      simp only [begins_decode h2]
      rfl
    simp only [h1, this]

/-- **C99.** `GetTileJSON` returns the TileJSON the server marshalled, whatever it sends after it. -/
theorem C99_tilejson {short : ℚ → Str} (hs : JText.Prints short) (token : Bytes) (net : Net) (ids : List Bytes) (t : TileJSON) (h : t.Valid) :
    ∃ b, JBytes.marshal (tileJSONC short) t = some b ∧ ∀ r rest, net [tileJSONRequest token ids] = some r → r.body = b ++ rest →
      getTileJSON short token net ids = (t.back, true) := by
  obtain ⟨b, h1, h2⟩ := (JBytes.C98_documents hs).1 t h
  refine ⟨b, h1, fun r rest hr hb => ?_⟩
  unfold getTileJSON
  simp only [hr, hb, h2]

/-- **C99.** `GetTileJSON` succeeds exactly when there is an answer whose characters begin with JSON for an object of the shape of a TileJSON (or
null); otherwise it returns the empty value. -/
theorem C99_tilejson_accepts (short : ℚ → Str) (token : Bytes) (net : Net) (ids : List Bytes) :
    ((getTileJSON short token net ids).2 = true ↔
      ∃ r s, net [tileJSONRequest token ids] = some r ∧ Utf8.Repaired r.body s ∧ DocRead.Begins DocRead.TileJSONShape s) ∧
    ((getTileJSON short token net ids).2 = false → (getTileJSON short token net ids).1 = (tileJSONC short).zero) := by
  unfold getTileJSON
  cases hn : net [tileJSONRequest token ids] with
  | none => simp
  | some r =>
    simp only [Option.some.injEq]
    unfold JBytes.tileJSONBody
    constructor
    · rw [(DocRead.C96_texts short _).1]
      constructor
      · intro h; exact ⟨r, _, rfl, Utf8.repaired_text _, h⟩
      · rintro ⟨r', s, rfl, h1, h2⟩; rw [Utf8.text_eq_iff.2 h1]; exact h2
    · unfold JText.tileJSONBody
      cases JText.readBody (tileJSONC short) (Utf8.text r.body) <;> simp

/-- **C99.** An answer that does not come, or does not begin with JSON for a list of records of the right shape, ends `ListStyles` and
`ListTilesets` with an error, and so does a style that does not come. -/
theorem C99_failures (short : ℚ → Str) (rnd : ℚ → ℚ) (imp : Nat) (parse : Bytes → Option Url) (user token : Bytes) (net : Net) :
    (∀ draft n, (∀ reqs r s, net reqs = some r → Utf8.Repaired r.body s → ¬ DocRead.Begins DocRead.StylesShape s) →
      (listStyles parse user token net draft (n + 1)).1 = .error) ∧
    (∀ p n, (∀ reqs r s, net reqs = some r → Utf8.Repaired r.body s → ¬ DocRead.Begins DocRead.TilesetsShape s) →
      (listTilesets short parse user token net p (n + 1)).1 = .error) ∧
    (∀ id draft, net [styleRequest user token id draft] = none → getStyle rnd imp user token net id draft = .error .err) := by
  have key : ∀ {α : Type} (c : Codec (Option (List α))) (Shape : J → Prop) (reqs : List Url),
      (∀ s, (∃ v, JText.readBody c s = some v) ↔ DocRead.Begins Shape s) →
      (∀ r s, net reqs = some r → Utf8.Repaired r.body s → ¬ DocRead.Begins Shape s) → reply c (net reqs) = .failed := by
    intro α c Shape reqs h1 h2
    cases hn : net reqs with
    | none => rfl
    | some r =>
      unfold reply JBytes.readBody
      cases hb : JText.readBody c (Utf8.text r.body) with
      | none => simp only [hb]
      | some v => exact absurd ((h1 _).1 ⟨v, hb⟩) (h2 r _ hn (Utf8.repaired_text _))
  refine ⟨fun draft n h => ?_, fun p n h => ?_, fun id draft h => ?_⟩
  · unfold listStyles
    rw [listLoop]
    simp only [key _ DocRead.StylesShape _ (fun s => (DocRead.C96_texts short s).2.2.1) (h _)]
  · unfold listTilesets
    rw [listLoop]
    simp only [key _ DocRead.TilesetsShape _ (fun s => (DocRead.C96_texts short s).2.1) (h _)]
  · unfold getStyle
    rw [h]

theorem chain_served {α : Type} {c : Codec α} {parse : Bytes → Option Url} {token : Bytes} {net : Net} {hist : List Url} {u : Url}
    {pages : List (List α)} {reqs : List Url} (h : Chain c parse token net hist u pages reqs)
    (hv : ∀ page ∈ pages, ∀ body, Holds c body page → JBytes.readBody (sliceC c) body = some (some page)) :
    Served parse token (fun h => reply (sliceC c) (net h)) hist u pages reqs := by
  induction h with
  | @last hist u r page h1 h2 h3 =>
    refine .last (link := r.link) ?_ (C49_no_next parse _ h3)
    simp only [h1, reply, hv page (by simp) _ h2, Option.getD_some]
  | @more hist reqs u u' r page pages addr h1 h2 h3 h4 _ ih =>
    refine .more (link := r.link) (u' := u') ?_ ?_ (ih fun p hp => hv p (by simp [hp]))
    · simp only [h1, reply, hv page (by simp) _ h2, Option.getD_some]
    · obtain ⟨pre, post, e, h5, h6, h7, h8⟩ := h3
      rw [e] at h8 ⊢
      rw [C49_next parse pre addr post h5 h6 h7 h8, h4]

/-- **C99.** `ListStyles` and `ListTilesets` return what the pages of the server hold, in order, with one request per page. -/
theorem C99_lists {short : ℚ → Str} (hs : JText.Prints short) (parse : Bytes → Option Url) (user token : Bytes) (net : Net) :
    (∀ draft (pages : List (List ListStyle)) reqs, (∀ p ∈ pages, ∀ x ∈ p, x.Valid) →
      Chain listStyleC parse token net [] ⟨address (listStylesPath user), listStylesQuery draft⟩ pages reqs →
      reqs.length = pages.length ∧ ∀ n, pages.length ≤ n → listStyles parse user token net draft n = (.ok pages.flatten, reqs)) ∧
    (∀ (p : ListTilesetsParams) (pages : List (List Tileset)) reqs, (∀ p ∈ pages, ∀ x ∈ p, x.Valid) →
      Chain (tilesetC short) parse token net [] ⟨address (listTilesetsPath user), listTilesetsQuery p.printed⟩ pages reqs →
      reqs.length = pages.length ∧ ∀ n, pages.length ≤ n → listTilesets short parse user token net p n = (.ok pages.flatten, reqs)) := by
  constructor
  · intro draft pages reqs hv h
    refine C48_all_pages (chain_served h fun page hp body hb => ?_)
    obtain ⟨b, rest, h1, rfl⟩ := hb
    obtain ⟨x, h2, h3⟩ := (JText.C95_pages hs).2 (some page) (fun l hl t ht => by cases hl; exact hv page hp t ht)
    unfold JBytes.marshal at h1
    rw [h2] at h1
    simp only [Option.map_some, Option.some.injEq] at h1
    subst h1
    unfold JBytes.readBody
    rw [Utf8.text_bytes_append]
    exact h3 _
  · intro p pages reqs hv h
    refine C48_all_pages (chain_served h fun page hp body hb => ?_)
    obtain ⟨b, rest, h1, rfl⟩ := hb
    obtain ⟨x, h2, h3⟩ := (JText.C95_pages hs).1 (some page) (fun l hl t ht => by cases hl; exact hv page hp t ht)
    unfold JBytes.marshal at h1
    rw [h2] at h1
    simp only [Option.map_some, Option.some.injEq] at h1
    subst h1
    unfold JBytes.readBody
    rw [Utf8.text_bytes_append]
    exact h3 _

/-- **C99.** `GetStyle` returns a style exactly when the answer begins with a JSON value that decodes into it (see C97); unlike `Parse` it
does not compute the background. -/
theorem C99_style (rnd : ℚ → ℚ) (imp : Nat) (user token : Bytes) (net : Net) (id : Bytes) (draft : Bool) (v : Style.StyleVal) :
    getStyle rnd imp user token net id draft = .ok v ↔ ∃ r s x, net [styleRequest user token id draft] = some r ∧
      Utf8.Repaired r.body s ∧ Style.StyleText s x ∧ Style.decodeStyle rnd imp x = .ok v := by
  unfold getStyle
  constructor
  · intro h
    cases hn : net [styleRequest user token id draft] with
    | none => rw [hn] at h; cases h
    | some r =>
      rw [hn] at h
      simp only at h
      cases hd : JText.decode (Utf8.text r.body) with
      | none => rw [hd] at h; cases h
      | some j =>
        rw [hd] at h
        obtain ⟨w, t, q, h1, h2, h3, h4⟩ := (JText.C95_first _ _).1 hd
        exact ⟨r, _, Style.toJson j, rfl, Utf8.repaired_text _,
          ⟨j, w, t, q, h1, h2, h3, h4, Style.stands_toJson (DocRead.text_spelled h2)⟩, h⟩
  · rintro ⟨r, s, x, hn, hr, ⟨j, w, t, q, h1, h2, h3, h4, hx⟩, h5⟩
    have hnum : ¬ ∃ n, j = .num n := by
      rintro ⟨n, rfl⟩
      have hf := (Style.C69_accepts rnd imp x).1 ⟨v, h5⟩
      rcases Style.stand_num hx with ⟨y, rfl⟩ | rfl <;> rcases hf with h | ⟨fs, h, _⟩ <;> cases h
    rw [hn]
    simp only
    rw [Utf8.text_eq_iff.2 hr, (JText.C95_first s j).2 w t q h1 h2 h3 h4 (fun h => absurd h hnum)]
    rw [← Style.stands_unique hx] at h5
    exact h5

/-! ### Examples -/

/-- a style with a date -/
def demoStyle : ListStyle := ⟨8, "Straße".toList, ⟨2024, 2, 29, 13, 5, 0, 120000000, -210⟩, "x1".toList, ⟨2024, 2, 29, 13, 5, 0, 120000000, -210⟩, "me".toList⟩

/-- A chain of two pages of styles, the second of them with the status 404. -/
example : ∃ net parse reqs, Chain listStyleC parse (lit "tok") net [] ⟨address (listStylesPath (lit "me")), listStylesQuery true⟩
    [[demoStyle], [demoStyle, demoStyle]] reqs ∧ ∀ p ∈ [[demoStyle], [demoStyle, demoStyle]], ∀ x ∈ p, x.Valid := by
  have hv : demoStyle.Valid := ⟨by decide +kernel, demo_time_valid, demo_time_valid⟩
  have hm : ∀ l : List ListStyle, (∀ x ∈ l, x.Valid) → ∃ b, JBytes.marshal (sliceC listStyleC) (some l) = some b := by
    intro l hl
    obtain ⟨x, h1, _⟩ := (JText.C95_pages JText.prints_allDecimals).2 (some l) (fun l' h => by cases h; exact hl)
    exact ⟨_, by unfold JBytes.marshal; rw [h1]; rfl⟩
  obtain ⟨b1, h1⟩ := hm [demoStyle] (by simpa using hv)
  obtain ⟨b2, h2⟩ := hm [demoStyle, demoStyle] (by simpa using hv)
  refine ⟨fun h => if h.length = 1 then some ⟨200, lit "<p2>; rel=\"next\"", b1 ++ [10]⟩ else some ⟨404, [], b2 ++ []⟩,
    fun _ => some ⟨lit "https://api.mapbox.com/p2", lit "start=x"⟩, _,
    .more (addr := lit "p2") (u' := ⟨lit "https://api.mapbox.com/p2", lit "start=x"⟩) rfl ⟨b1, [10], h1, rfl⟩ ?_ rfl
      (.last rfl ⟨b2, [], h2, rfl⟩ ?_), ?_⟩
  · change LinksTo (lit "<p2>; rel=\"next\"") _
    refine ⟨[], lit "; rel=\"next\"", by decide +kernel, by decide +kernel, by decide +kernel, by decide +kernel,
      lit "<p2>; rel=\"", lit "\"", by decide +kernel⟩
  · rintro ⟨a, b, h⟩
    have := congrArg List.length h
    have e : (lit "next").length = 4 := by decide +kernel
    simp only [List.length_append, e] at this
    simp only [List.length_nil] at this
    omega
  · intro p hp x hx
    have : x = demoStyle := by
      simp only [List.mem_cons, List.not_mem_nil, or_false] at hp
      rcases hp with rfl | rfl <;> simpa using hx
    rw [this]
    exact hv

/-- An answer that says that there is no such tileset. -/
example : ∃ ms, Begins (Utf8.bytes "{\"message\":\"Not Found\"}\n".toList) (.obj ms) ∧ ∀ m ∈ ms, ∀ n ∈ tileJSONNames, fold n.toList ≠ fold m.1 := by
  refine ⟨[("message".toList, .str "Not Found".toList)], ?_, by decide +kernel⟩
  have hc : ∀ s : Str, (∀ c ∈ s, c ≠ '"' ∧ c ≠ '\\' ∧ 0x20 ≤ c.toNat) → JText.Chars s s := by
    intro s
    induction s with
    | nil => intro _; exact .nil
    | cons c s ih =>
      intro h
      exact .plain (h c (by simp)).1 (h c (by simp)).2.1 (h c (by simp)).2.2 (ih fun d hd => h d (by simp [hd]))
  have w0 : JText.Ws [] := by simp [JText.Ws]
  refine ⟨_, [], "{\"message\":\"Not Found\"}".toList, ['\n'], Utf8.repaired_text _, w0, ?_, ?_, by decide, by rintro ⟨n, h⟩; cases h⟩
  · exact .obj (.one (w := []) (n := "message".toList) (w1 := []) (w2 := []) (s := "\"Not Found\"".toList) (w3 := []) w0 (hc _ (by decide +kernel)) w0 w0
      (.str (s := "Not Found".toList) (hc _ (by decide +kernel))) w0)
  · rw [Utf8.text_bytes]; decide +kernel

/-- A name with a blank, a question mark, a line feed and a percent sign stays inside the path. -/
example : address (getStylePath (lit "a b?c") (lit "x%2F\n#é") true) =
    lit "https://api.mapbox.com/styles/v1/a%20b%3Fc/x%252F%0A%23%E9/draft" := by decide +kernel

end Verif.Client

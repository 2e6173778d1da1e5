import Verif.Proof.Client

/-!
# C48, C49, C65: the API client
-/
namespace Verif.Client

variable {α : Type}

/-! ## C48: pagination -/

/-- Specification: with the requests `hist` behind it, asking for `u` and following the next links gives the pages
`pages`; `hist'` are all requests made at the end, one more per page. -/
inductive Served (parse : Bytes → Option Url) (token : Bytes) (srv : Server α) :
    List Url → Url → List (List α) → List Url → Prop
  | last {hist u page link} : srv (hist ++ [addAuthentication token u]) = .ok page link →
      nextPageURL parse link = .done → Served parse token srv hist u [page] (hist ++ [addAuthentication token u])
  | more {hist u page link u' pages hist'} : srv (hist ++ [addAuthentication token u]) = .ok page link →
      nextPageURL parse link = .page u' → Served parse token srv (hist ++ [addAuthentication token u]) u' pages hist' →
      Served parse token srv hist u (page :: pages) hist'

/-- Specification: some page on the way fails. -/
inductive FailsAt (parse : Bytes → Option Url) (token : Bytes) (srv : Server α) : List Url → Url → Prop
  | here {hist u} : srv (hist ++ [addAuthentication token u]) = .failed → FailsAt parse token srv hist u
  | later {hist u page link u'} : srv (hist ++ [addAuthentication token u]) = .ok page link →
      nextPageURL parse link = .page u' → FailsAt parse token srv (hist ++ [addAuthentication token u]) u' →
      FailsAt parse token srv hist u

theorem served_loop {parse : Bytes → Option Url} {token : Bytes} {srv : Server α} {hist : List Url} {u : Url}
    {pages : List (List α)} {hist' : List Url} (h : Served parse token srv hist u pages hist') :
    ∀ n, pages.length ≤ n → ∀ all, listLoop parse token srv n all hist u = (.ok (all ++ pages.flatten), hist') := by
  induction h with
  | last h1 h2 =>
    intro n hn all
    obtain ⟨m, rfl⟩ : ∃ m, n = m + 1 := ⟨n - 1, by simp at hn; omega⟩
    simp only [listLoop, h1, h2, List.flatten_cons, List.flatten_nil, List.append_nil]
  | more h1 h2 _ ih =>
    intro n hn all
    obtain ⟨m, rfl⟩ : ∃ m, n = m + 1 := ⟨n - 1, by simp at hn; omega⟩
    simp only [listLoop, h1, h2, List.flatten_cons]
    rw [ih m (by simpa using hn), List.append_assoc]

/-- A finite chain of pages: the loop ends and returns their concatenation in order, having made one request per
page. -/
theorem C48_all_pages {parse : Bytes → Option Url} {token : Bytes} {srv : Server α} {u : Url}
    {pages : List (List α)} {reqs : List Url} (h : Served parse token srv [] u pages reqs) :
    reqs.length = pages.length ∧
    ∀ n, pages.length ≤ n → listLoop parse token srv n [] [] u = (.ok pages.flatten, reqs) := by
  refine ⟨?_, fun n hn => by simpa using served_loop h n hn []⟩
  have key : ∀ {hist : List Url} {u : Url} {pages : List (List α)} {reqs : List Url},
      Served parse token srv hist u pages reqs → reqs.length = hist.length + pages.length := by
    intro hist u pages reqs h
    induction h with
    | last _ _ => simp
    | more _ _ _ ih => rw [ih]; simp; omega
  simpa using key h

theorem loop_served {parse : Bytes → Option Url} {token : Bytes} {srv : Server α} :
    ∀ (n : Nat) (all : List α) (hist : List Url) (u : Url) (l : List α) (reqs : List Url),
    listLoop parse token srv n all hist u = (.ok l, reqs) →
    ∃ pages, Served parse token srv hist u pages reqs ∧ l = all ++ pages.flatten := by
  intro n
  induction n with
  | zero => intro all hist u l reqs h; simp [listLoop] at h
  | succ n ih =>
    intro all hist u l reqs h
    simp only [listLoop] at h
    split at h
    · simp at h
    · rename_i page link e
      split at h
      · rename_i e2
        injection h with h1 h2
        injection h1 with h1
        exact ⟨[page], h2 ▸ Served.last e e2, by rw [← h1]; simp⟩
      · simp at h
      · rename_i u' e2
        obtain ⟨pages, hs, hl⟩ := ih _ _ _ _ _ h
        exact ⟨page :: pages, Served.more e e2 hs, by rw [hl]; simp⟩

/-- Whatever is returned without an error is the concatenation of a complete chain of pages. -/
theorem C48_only_pages {parse : Bytes → Option Url} {token : Bytes} {srv : Server α} (n : Nat) (u : Url) (l : List α)
    (reqs : List Url) (h : listLoop parse token srv n [] [] u = (.ok l, reqs)) :
    ∃ pages, Served parse token srv [] u pages reqs ∧ l = pages.flatten := by
  simpa using loop_served n [] [] u l reqs h

/-- Any failing page makes the call end with an error, which carries no items; and only a failing page does. -/
theorem C48_error {parse : Bytes → Option Url} {token : Bytes} {srv : Server α} (u : Url) :
    FailsAt parse token srv [] u ↔ ∃ n, (listLoop parse token srv n ([] : List α) [] u).1 = .error := by
  constructor
  · intro h
    have key : ∀ {hist : List Url} {u : Url}, FailsAt parse token srv hist u →
        ∃ n, ∀ all : List α, (listLoop parse token srv n all hist u).1 = .error := by
      intro hist u h
      induction h with
      | here h => exact ⟨1, fun all => by simp only [listLoop, h]⟩
      | later h1 h2 _ ih =>
        obtain ⟨n, hn⟩ := ih
        exact ⟨n + 1, fun all => by simp only [listLoop, h1, h2]; exact hn _⟩
    obtain ⟨n, hn⟩ := key h
    exact ⟨n, hn []⟩
  · rintro ⟨n, h⟩
    have key : ∀ (n : Nat) (all : List α) (hist : List Url) (u : Url),
        (listLoop parse token srv n all hist u).1 = .error → FailsAt parse token srv hist u := by
      intro n
      induction n with
      | zero => intro all hist u h; simp [listLoop] at h
      | succ n ih =>
        intro all hist u h
        simp only [listLoop] at h
        split at h
        · rename_i e; exact FailsAt.here e
        · rename_i page link e
          split at h
          · cases h
          · cases h
          · rename_i u' e2
            exact FailsAt.later e e2 (ih _ _ _ h)
    exact key n _ _ _ h

/-- the token is among the `access_token` values of the query -/
def HasToken (token : Bytes) (r : Url) : Prop := token ∈ (parseQuery r.rawQuery).get (lit "access_token")

/-- Authentication adds the token and keeps the address and every other parameter; when the link had no token of its
own it is the only one. -/
theorem C48_authentication (token : Bytes) (u : Url) :
    (addAuthentication token u).base = u.base ∧
    (parseQuery (addAuthentication token u).rawQuery).get (lit "access_token") =
      (parseQuery u.rawQuery).get (lit "access_token") ++ [token] ∧
    ∀ k, k ≠ lit "access_token" →
      (parseQuery (addAuthentication token u).rawQuery).get k = (parseQuery u.rawQuery).get k := by
  have hok := add_ok _ (lit "access_token") token (parseQuery_ok u.rawQuery)
  refine ⟨rfl, ?_, fun k hk => ?_⟩
  · show (parseQuery (Values.encode _)).get _ = _
    rw [get_parse_encode _ hok, get_add, if_pos rfl]
  · show (parseQuery (Values.encode _)).get _ = _
    rw [get_parse_encode _ hok, get_add, if_neg (Ne.symm hk)]

/-- Every request a listing makes carries the token, for every server and however long it runs. -/
theorem C48_token (parse : Bytes → Option Url) (token : Bytes) (srv : Server α) (n : Nat) (u : Url) :
    ∀ r ∈ (listLoop parse token srv n ([] : List α) [] u).2, HasToken token r := by
  have h0 : ∀ u, HasToken token (addAuthentication token u) := by
    intro u
    unfold HasToken
    rw [(C48_authentication token u).2.1]
    simp
  have key : ∀ (n : Nat) (all : List α) (hist : List Url) (u : Url), (∀ r ∈ hist, HasToken token r) →
      ∀ r ∈ (listLoop parse token srv n all hist u).2, HasToken token r := by
    intro n
    induction n with
    | zero => intro all hist u h; exact h
    | succ n ih =>
      intro all hist u h
      have h' : ∀ r ∈ hist ++ [addAuthentication token u], HasToken token r := by
        intro r hr
        rcases List.mem_append.1 hr with hr | hr
        · exact h r hr
        · rw [List.mem_singleton.1 hr]; exact h0 u
      simp only [listLoop]
      split
      · exact h'
      · split
        · exact h'
        · exact h'
        · exact ih _ _ _ h'
  exact key n [] [] u (by simp)

/-- A server whose every page links to a next one keeps the call running for ever. -/
theorem C48_endless (parse : Bytes → Option Url) (token : Bytes) (srv : Server α)
    (h : ∀ hist, ∃ page link u', srv hist = .ok page link ∧ nextPageURL parse link = .page u') (n : Nat) (u : Url) :
    (listLoop parse token srv n ([] : List α) [] u).1 = .running := by
  have key : ∀ (n : Nat) (all : List α) (hist : List Url) (u : Url), (listLoop parse token srv n all hist u).1 = .running := by
    intro n
    induction n with
    | zero => intros; rfl
    | succ n ih =>
      intro all hist u
      obtain ⟨page, link, u', e1, e2⟩ := h (hist ++ [addAuthentication token u])
      simp only [listLoop, e1, e2]
      exact ih _ _ _
  exact key n _ _ _

/-! ## C49: link header -/

theorem upToLast_none {s : Bytes} (h : (62 : Byte) ∉ s) : upToLast s = none := by
  induction s with
  | nil => rfl
  | cons b s ih =>
    simp only [List.mem_cons, not_or] at h
    have hb : b.val ≠ 62 := fun e => h.1 (Fin.ext (by rw [e]; rfl))
    rw [upToLast, ih h.2]
    simp only
    rw [if_neg hb]

theorem upToLast_spec (u post : Bytes) (h : (62 : Byte) ∉ post) : upToLast (u ++ (62 : Byte) :: post) = some u := by
  induction u with
  | nil => simp only [List.nil_append, upToLast, upToLast_none h]; simp
  | cons b u ih => simp only [List.cons_append, upToLast, ih]

/-- the text between the first `<` and the last `>` of a one-line header -/
theorem linkGroup_spec (pre u post : Bytes) (h1 : (60 : Byte) ∉ pre) (h2 : (62 : Byte) ∉ post)
    (hn : ∀ b ∈ u ++ (62 : Byte) :: post, b.val ≠ 10) : linkGroup (pre ++ (60 : Byte) :: (u ++ (62 : Byte) :: post)) = some u := by
  induction pre with
  | nil =>
    simp only [List.nil_append, linkGroup]
    have : (u ++ (62 : Byte) :: post).takeWhile (·.val ≠ 10) = u ++ (62 : Byte) :: post := by
      have := List.takeWhile_append_of_pos (l₁ := u ++ (62 : Byte) :: post) (l₂ := []) (p := (·.val ≠ 10))
        (fun b hb => by simpa using hn b hb)
      simpa using this
    rw [this, upToLast_spec u post h2]
    simp
  | cons b pre ih =>
    simp only [List.mem_cons, not_or] at h1
    have hb : b.val ≠ 60 := fun e => h1.1 (Fin.ext (by rw [e]; rfl))
    rw [List.cons_append, linkGroup, if_neg hb, ih h1.2]

theorem linkGroup_none (s : Bytes) (h : (60 : Byte) ∉ s ∨ (62 : Byte) ∉ s) : linkGroup s = none := by
  induction s with
  | nil => rfl
  | cons b s ih =>
    simp only [List.mem_cons, not_or] at h
    have h' : (60 : Byte) ∉ s ∨ (62 : Byte) ∉ s := h.imp And.right And.right
    rw [linkGroup]
    split
    · rename_i hb
      rcases h with h | h
      · exact absurd (Fin.ext (by rw [hb]; rfl)) h.1
      · rw [upToLast_none, ih h']
        intro hm
        exact h.2 ((List.takeWhile_subset _) hm)
    · exact ih h'

/-- Specification: `sub` occurs in `s`. -/
theorem containsSub_iff (sub s : Bytes) : containsSub sub s = true ↔ ∃ a b, s = a ++ sub ++ b := by
  induction s with
  | nil =>
    simp only [containsSub, List.isEmpty_iff]
    constructor
    · intro h; exact ⟨[], [], by simp [h]⟩
    · rintro ⟨a, b, h⟩
      have := List.append_eq_nil_iff.1 h.symm
      exact (List.append_eq_nil_iff.1 this.1).2
  | cons c s ih =>
    simp only [containsSub, Bool.or_eq_true, ih, List.isPrefixOf_iff_prefix]
    constructor
    · rintro (⟨b, h⟩ | ⟨a, b, h⟩)
      · exact ⟨[], b, by simp [h]⟩
      · exact ⟨c :: a, b, by simp [h]⟩
    · rintro ⟨a, b, h⟩
      cases a with
      | nil => exact Or.inl ⟨b, by simpa using h.symm⟩
      | cons x a =>
        right
        simp only [List.cons_append, List.cons.injEq] at h
        exact ⟨a, b, h.2⟩

/-- A header mentioning `next`, on one line, is followed to the address between its first `<` and its last `>`; an
address that does not parse ends the listing.  With one `<url>; rel="next"` entry that address is `url`. -/
theorem C49_next (parse : Bytes → Option Url) (pre u post : Bytes) (h1 : (60 : Byte) ∉ pre) (h2 : (62 : Byte) ∉ post)
    (hn : ∀ b ∈ u ++ (62 : Byte) :: post, b.val ≠ 10)
    (hnext : ∃ a b, pre ++ (60 : Byte) :: (u ++ (62 : Byte) :: post) = a ++ lit "next" ++ b) :
    nextPageURL parse (pre ++ (60 : Byte) :: (u ++ (62 : Byte) :: post)) =
      match parse u with
      | none => .done
      | some v => .page v := by
  rw [nextPageURL, if_pos ((containsSub_iff _ _).2 hnext), linkGroup_spec pre u post h1 h2 hn]
  rfl

/-- Without `next` the listing ends. -/
theorem C49_no_next (parse : Bytes → Option Url) (link : Bytes) (h : ¬ ∃ a b, link = a ++ lit "next" ++ b) :
    nextPageURL parse link = .done := by
  rw [nextPageURL, if_neg (fun hc => h ((containsSub_iff _ _).1 hc))]

/-- A header that mentions `next` but lacks one of the brackets panics. -/
theorem C49_panic (parse : Bytes → Option Url) (link : Bytes) (h : ∃ a b, link = a ++ lit "next" ++ b)
    (hb : (60 : Byte) ∉ link ∨ (62 : Byte) ∉ link) : nextPageURL parse link = .panic := by
  rw [nextPageURL, if_pos ((containsSub_iff _ _).2 h), linkGroup_none link hb]

/-- The ordinary header, and one with two entries, for which the pattern joins both addresses. -/
theorem C49_examples (parse : Bytes → Option Url) (v : Url) (h : parse (lit "https://h/s?start=x") = some v) :
    nextPageURL parse (lit "<https://h/s?start=x>; rel=\"next\"") = .page v ∧
    linkGroup (lit "<https://h/a>; rel=\"prev\", <https://h/b>; rel=\"next\"") =
      some (lit "https://h/a>; rel=\"prev\", <https://h/b") := by
  constructor
  · have e : linkGroup (lit "<https://h/s?start=x>; rel=\"next\"") = some (lit "https://h/s?start=x") := by decide +kernel
    have e2 : containsSub (lit "next") (lit "<https://h/s?start=x>; rel=\"next\"") = true := by decide +kernel
    rw [nextPageURL, if_pos e2, e]
    simp only [h]
  · decide +kernel

/-- two pages, then an end: the hypotheses of `C48_all_pages` are met -/
example : ∃ (srv : Server Nat) (parse : Bytes → Option Url) (reqs : List Url),
    Served parse (lit "t") srv [] ⟨lit "https://h/s", []⟩ [[1, 2], [3]] reqs := by
  refine ⟨fun h => if h.length = 1 then .ok [1, 2] (lit "<p2>; rel=\"next\"") else .ok [3] [],
    fun _ => some ⟨lit "https://h/s", lit "start=2"⟩,
    [addAuthentication (lit "t") ⟨lit "https://h/s", []⟩, addAuthentication (lit "t") ⟨lit "https://h/s", lit "start=2"⟩], ?_⟩
  refine Served.more (link := lit "<p2>; rel=\"next\"") (u' := ⟨lit "https://h/s", lit "start=2"⟩) ?_ ?_ (Served.last (link := []) ?_ ?_)
  · simp
  · decide +kernel
  · simp
  · decide +kernel

/-! ## C65: request addresses -/

/-- Specification: one plain path segment. -/
def Segment (s : Bytes) : Prop := s ≠ [] ∧ (47 : Byte) ∉ s ∧ s ≠ lit "." ∧ s ≠ lit ".."

theorem cleanStep_seg (out : List Bytes) {s : Bytes} (h : Segment s) : cleanStep out s = s :: out := by
  obtain ⟨h1, -, h3, h4⟩ := h
  rw [cleanStep.eq_def, if_neg (by rintro (e | e); exact h1 e; exact h3 e), if_neg h4]

theorem cleanStep_nil (out : List Bytes) : cleanStep out [] = out := by simp [cleanStep]

theorem foldl_segs (ss : List Bytes) (out : List Bytes) (h : ∀ s ∈ ss, Segment s) :
    ss.foldl cleanStep out = ss.reverse ++ out := by
  induction ss generalizing out with
  | nil => rfl
  | cons s ss ih =>
    rw [List.foldl_cons, cleanStep_seg out (h s (by simp)), ih _ (fun x hx => h x (by simp [hx]))]
    simp

theorem intercalate_cons (sep : Byte) (p p' : Bytes) (ps : List Bytes) :
    List.intercalate [sep] (p :: p' :: ps) = p ++ sep :: List.intercalate [sep] (p' :: ps) := by
  simp [List.intercalate, List.intersperse]

theorem intercalate_one (sep : Byte) (p : Bytes) : List.intercalate [sep] [p] = p := by
  simp [List.intercalate, List.intersperse]

/-- cleaning a path of plain segments, one of them followed by a doubled slash -/
theorem clean_double (a b : Bytes) (ss : List Bytes) (ha : Segment a) (hb : Segment b) (hs : ss ≠ [])
    (h : ∀ s ∈ ss, Segment s) :
    clean (a ++ (47 : Byte) :: (b ++ (47 : Byte) :: ((47 : Byte) :: List.intercalate [(47 : Byte)] ss))) =
      a ++ (47 : Byte) :: (b ++ (47 : Byte) :: List.intercalate [(47 : Byte)] ss) := by
  have e1 : splitAt 47 (a ++ (47 : Byte) :: (b ++ (47 : Byte) :: ((47 : Byte) :: List.intercalate [(47 : Byte)] ss))) =
      a :: b :: [] :: ss := by
    rw [splitAt_append 47 a _ ha.2.1, splitAt_append 47 b _ hb.2.1]
    have := splitAt_append 47 [] (List.intercalate [(47 : Byte)] ss) (by simp)
    rw [List.nil_append] at this
    rw [this, splitAt_intercalate 47 ss hs (fun p hp => (h p hp).2.1)]
  unfold clean
  rw [e1]
  simp only [List.foldl_cons, cleanStep_seg _ ha, cleanStep_seg _ hb, cleanStep_nil, foldl_segs ss _ h]
  rw [if_neg (by simp)]
  obtain ⟨s, ss', rfl⟩ := List.exists_cons_of_ne_nil hs
  simp only [List.reverse_append, List.reverse_reverse, List.reverse_cons, List.reverse_nil, List.nil_append,
    List.cons_append]
  rw [intercalate_cons, intercalate_cons]

theorem join_two (a b : Bytes) (p : Bytes) (ss : List Bytes) (ha : Segment a) (hb : Segment b) (hs : ss ≠ [])
    (hp : p = a ++ (47 : Byte) :: (b ++ [(47 : Byte)])) (h : ∀ s ∈ ss, Segment s) :
    pathJoin ([] :: p :: ss) = p ++ List.intercalate [(47 : Byte)] ss := by
  have hpne : p ≠ [] := by rw [hp]; simp
  have hf : ([] :: p :: ss).filter (· ≠ []) = p :: ss := by
    rw [List.filter_cons_of_neg (by simp), List.filter_cons_of_pos (by simpa using hpne)]
    congr 1
    rw [List.filter_eq_self]
    intro s hs'
    simpa using (h s hs').1
  unfold pathJoin
  simp only [hf]
  rw [if_neg (by simp)]
  obtain ⟨s, ss', rfl⟩ := List.exists_cons_of_ne_nil hs
  rw [intercalate_cons, hp]
  have := clean_double a b (s :: ss') ha hb hs h
  simp only [List.append_assoc, List.cons_append, List.nil_append] at this ⊢
  exact this

instance (s : Bytes) : Decidable (Segment s) := by unfold Segment; infer_instance

/-- For a user name and an id that are plain path segments the requests go to `styles/v1/user`,
`styles/v1/user/id`, `styles/v1/user/id/draft` and `tilesets/v1/user`. -/
theorem C65_paths (user id : Bytes) (hu : Segment user) (hi : Segment id) :
    listStylesPath user = lit "styles/v1/" ++ user ∧
    getStylePath user id false = lit "styles/v1/" ++ user ++ lit "/" ++ id ∧
    getStylePath user id true = lit "styles/v1/" ++ user ++ lit "/" ++ id ++ lit "/draft" ∧
    listTilesetsPath user = lit "tilesets/v1/" ++ user := by
  have hst : Segment (lit "styles") := by decide +kernel
  have hts : Segment (lit "tilesets") := by decide +kernel
  have hv : Segment (lit "v1") := by decide +kernel
  have hd : Segment (lit "draft") := by decide +kernel
  have e1 : lit "styles/v1/" = lit "styles" ++ (47 : Byte) :: (lit "v1" ++ [(47 : Byte)]) := by decide +kernel
  have e2 : lit "tilesets/v1/" = lit "tilesets" ++ (47 : Byte) :: (lit "v1" ++ [(47 : Byte)]) := by decide +kernel
  have e3 : lit "/" = [(47 : Byte)] := by decide +kernel
  have e4 : lit "/draft" = (47 : Byte) :: lit "draft" := by decide +kernel
  have g : pathJoin [[], lit "styles/v1/", user, id] = lit "styles/v1/" ++ user ++ lit "/" ++ id := by
    rw [join_two _ _ _ [user, id] hst hv (by simp) e1 (by
      intro s hs; simp only [List.mem_cons, List.not_mem_nil, or_false] at hs; rcases hs with rfl | rfl <;> assumption)]
    rw [intercalate_cons, intercalate_one, e3]; simp
  refine ⟨?_, ?_, ?_, ?_⟩
  · unfold listStylesPath
    rw [join_two _ _ _ [user] hst hv (by simp) e1 (by
      intro s hs; simp only [List.mem_cons, List.not_mem_nil, or_false] at hs; rcases hs with rfl; assumption)]
    rw [intercalate_one]
  · simp only [getStylePath, g, Bool.false_eq_true, if_false]
  · simp only [getStylePath, g, if_true]
    have hall : ∀ s ∈ [lit "styles", lit "v1", user, id, lit "draft"], Segment s := by
      intro s hs
      simp only [List.mem_cons, List.not_mem_nil, or_false] at hs
      rcases hs with rfl | rfl | rfl | rfl | rfl <;> assumption
    have ej : List.intercalate [(47 : Byte)] [lit "styles", lit "v1", user, id, lit "draft"] =
        lit "styles/v1/" ++ user ++ lit "/" ++ id ++ lit "/draft" := by
      rw [intercalate_cons, intercalate_cons, intercalate_cons, intercalate_cons, intercalate_one, e1, e3, e4]
      simp
    unfold pathJoin
    have hne : lit "styles/v1/" ++ user ++ lit "/" ++ id ≠ [] := by rw [e1]; simp
    have hf : [lit "styles/v1/" ++ user ++ lit "/" ++ id, lit "draft"].filter (· ≠ []) =
        [lit "styles/v1/" ++ user ++ lit "/" ++ id, lit "draft"] := by
      rw [List.filter_eq_self]
      intro s hs
      simp only [List.mem_cons, List.not_mem_nil, or_false] at hs
      rcases hs with rfl | rfl
      · rw [decide_eq_true_eq]; exact hne
      · simpa using hd.1
    simp only [hf]
    rw [if_neg (by simp), intercalate_cons, intercalate_one]
    have e5 : lit "styles/v1/" ++ user ++ lit "/" ++ id ++ (47 : Byte) :: lit "draft" =
        List.intercalate [(47 : Byte)] [lit "styles", lit "v1", user, id, lit "draft"] := by rw [ej, e4]
    rw [e5]
    unfold clean
    rw [splitAt_intercalate 47 _ (by simp) (fun p hp => (hall p hp).2.1)]
    simp only [foldl_segs _ _ hall, List.append_nil, List.reverse_reverse]
    rw [if_neg (by simp), ej]
  · unfold listTilesetsPath
    rw [join_two _ _ _ [user] hts hv (by simp) e2 (by
      intro s hs; simp only [List.mem_cons, List.not_mem_nil, or_false] at hs; rcases hs with rfl; assumption)]
    rw [intercalate_one]

example : Segment (lit "flywave") ∧ Segment (lit "cjikt35x83t1z2rnxpdmjs7y7") := by decide +kernel

theorem join_segs (ss : List Bytes) (hs : ss ≠ []) (h : ∀ s ∈ ss, Segment s) :
    pathJoin ([] :: ss) = List.intercalate [(47 : Byte)] ss := by
  have hf : ([] :: ss).filter (· ≠ []) = ss := by
    rw [List.filter_cons_of_neg (by simp), List.filter_eq_self]
    intro s hs'
    simpa using (h s hs').1
  unfold pathJoin
  simp only [hf]
  rw [if_neg hs]
  unfold clean
  rw [splitAt_intercalate 47 _ hs (fun p hp => (h p hp).2.1)]
  simp only [foldl_segs _ _ h, List.append_nil, List.reverse_reverse]
  rw [if_neg hs]

/-- The TileJSON of several tilesets is asked for at `v4/id1,id2,….json`. -/
theorem C65_tilejson (ids : List Bytes) (h : Segment (List.intercalate [(44 : Byte)] ids)) :
    tileJSONPath ids = lit "v4/" ++ List.intercalate [(44 : Byte)] ids ++ lit ".json" := by
  have hv : Segment (lit "v4") := by decide +kernel
  have e1 : lit "v4/" = lit "v4" ++ [(47 : Byte)] := by decide +kernel
  unfold tileJSONPath
  generalize List.intercalate [(44 : Byte)] ids = s at h
  rw [join_segs [lit "v4", s] (by simp) (by
    intro x hx; simp only [List.mem_cons, List.not_mem_nil, or_false] at hx; rcases hx with rfl | rfl <;> assumption)]
  rw [intercalate_cons, intercalate_one, e1]
  simp

example : Segment (List.intercalate [(44 : Byte)] [lit "mapbox.streets", lit "u.x1"]) := by decide +kernel

/-- The id is not escaped: one with slashes and dots leaves the user's directory. -/
theorem C65_id_not_confined :
    getStylePath (lit "me") (lit "../you/s") false = lit "styles/v1/you/s" := by decide +kernel

/-- The query of `ListStyles`: `draft` as asked, `fresh=true`, and nothing else. -/
theorem C65_styles_query (draft : Bool) :
    (parseQuery (listStylesQuery draft)).get (lit "draft") = [if draft then lit "true" else lit "false"] ∧
    (parseQuery (listStylesQuery draft)).get (lit "fresh") = [lit "true"] ∧
    ∀ k, k ≠ lit "draft" → k ≠ lit "fresh" → (parseQuery (listStylesQuery draft)).get k = [] := by
  have hok := add_ok _ (lit "fresh") (lit "true") (add_ok _ (lit "draft")
    (if draft then lit "true" else lit "false") (parseQuery_ok []))
  have h0 : ∀ k, (parseQuery []).get k = [] := fun k => rfl
  have n1 : lit "draft" ≠ lit "fresh" := by decide +kernel
  unfold listStylesQuery
  simp only [get_parse_encode _ hok, get_add, h0]
  refine ⟨by simp [n1.symm], by simp [n1], fun k k1 k2 => ?_⟩
  rw [if_neg k2.symm, if_neg k1.symm]

theorem addOpt_ok (q : Values) (k : Bytes) (v : Option Bytes) (h : q.Ok) : (addOpt q k v).Ok := by
  cases v with
  | none => exact h
  | some v => exact add_ok q k v h

theorem get_addOpt (q : Values) (k : Bytes) (v : Option Bytes) (k' : Bytes) :
    (addOpt q k v).get k' = if k = k' then q.get k' ++ v.toList else q.get k' := by
  cases v with
  | none => simp [addOpt]
  | some v => simp [addOpt, get_add]

/-- The query of `ListTilesets` has exactly the parameters that are set. -/
theorem C65_tilesets_query (p : TilesetParams) :
    (parseQuery (listTilesetsQuery p)).get (lit "type") = p.type.toList ∧
    (parseQuery (listTilesetsQuery p)).get (lit "visibility") = p.visibility.toList ∧
    (parseQuery (listTilesetsQuery p)).get (lit "sortby") = p.sortBy.toList ∧
    (parseQuery (listTilesetsQuery p)).get (lit "limit") = p.limit.toList ∧
    ∀ k, k ≠ lit "type" → k ≠ lit "visibility" → k ≠ lit "sortby" → k ≠ lit "limit" →
      (parseQuery (listTilesetsQuery p)).get k = [] := by
  have hok := addOpt_ok _ (lit "limit") p.limit (addOpt_ok _ (lit "sortby") p.sortBy
    (addOpt_ok _ (lit "visibility") p.visibility (addOpt_ok _ (lit "type") p.type (parseQuery_ok []))))
  have h0 : ∀ k, (parseQuery []).get k = [] := fun k => rfl
  have n1 : lit "type" ≠ lit "visibility" := by decide +kernel
  have n2 : lit "type" ≠ lit "sortby" := by decide +kernel
  have n3 : lit "type" ≠ lit "limit" := by decide +kernel
  have n4 : lit "visibility" ≠ lit "sortby" := by decide +kernel
  have n5 : lit "visibility" ≠ lit "limit" := by decide +kernel
  have n6 : lit "sortby" ≠ lit "limit" := by decide +kernel
  unfold listTilesetsQuery
  simp only [get_parse_encode _ hok, get_addOpt, h0]
  refine ⟨?_, ?_, ?_, ?_, fun k k1 k2 k3 k4 => ?_⟩
  · simp [n1.symm, n2.symm, n3.symm]
  · simp [n1, n4.symm, n5.symm]
  · simp [n2, n4, n6.symm]
  · simp [n3, n5, n6]
  · rw [if_neg k4.symm, if_neg k3.symm, if_neg k2.symm, if_neg k1.symm]

end Verif.Client

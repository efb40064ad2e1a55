import Verif.Regex.Props
import Verif.Regex.SyntaxModel
set_option linter.unusedSimpArgs false
/-
C136, from the texts of the patterns: what regexp.Compile makes of the patterns of the repository and of routes, and a ServeMux whose Handle was called
with the texts of routes.
-/
namespace Micro.Regex
open Micro Micro.Rest

/-! ### Specification: the texts of routes -/

/-- regexp.QuoteMeta of one rune. -/
def quote (c : Char) : List Char := if c ∈ "\\.+*?()|[]{}^$".toList then ['\\', c] else [c]

/-- A piece of a route as a program writes it: a text through regexp.QuoteMeta, or rest.UUIDGroup. -/
def pieceText : Piece → List Char
  | .text s => s.flatMap quote
  | .uuid => uuidGroup

/-- `^pieces$` -/
def routeText (ps : List Piece) : List Char := ['^'] ++ ps.flatMap pieceText ++ ['$']

example : routeText [.text "/v1.0/c/".toList, .uuid] =
    "^/v1\\.0/c/([0-9A-Fa-f]{8}-[0-9A-Fa-f]{4}-[0-9A-Fa-f]{4}-[0-9A-Fa-f]{4}-[0-9A-Fa-f]{12})$".toList := by decide +kernel

/-! ### Expressions that match alike -/

variable {α : Type} [Sym α]

/-- Same matches in the same order, and as many groups. -/
def Alike (a b : Re) : Prop := a.caps = b.caps ∧ ∀ (α : Type) [Sym α] (bg : Bool) (s : List α), outs a bg s = outs b bg s

theorem Alike.refl (a : Re) : Alike a a := ⟨rfl, fun _ _ _ _ => rfl⟩
theorem Alike.symm {a b : Re} (h : Alike a b) : Alike b a := ⟨h.1.symm, fun _ _ _ _ => (h.2 _ _ _).symm⟩
theorem Alike.trans {a b c : Re} (h : Alike a b) (h' : Alike b c) : Alike a c := ⟨h.1.trans h'.1, fun _ _ _ _ => (h.2 _ _ _).trans (h'.2 _ _ _)⟩

theorem Alike.outs {a b : Re} (h : Alike a b) : (outs a : Bool → List α → List (Hit α)) = outs b := by
  funext bg s
  exact h.2 α bg s

theorem Alike.seq {a a' b b' : Re} (h : Alike a a') (h' : Alike b b') : Alike (.seq a b) (.seq a' b') := by
  refine ⟨by simp [Re.caps, h.1, h'.1], fun α _ bg s => ?_⟩
  simp only [Regex.outs]
  rw [h.outs, h'.outs]

theorem Alike.cap {a a' : Re} (i : Nat) (h : Alike a a') : Alike (.cap i a) (.cap i a') := by
  refine ⟨by simp [Re.caps, h.1], fun α _ bg s => ?_⟩
  simp only [Regex.outs]
  rw [h.outs]

theorem Alike.grp {a a' : Re} (h : Alike a a') : Alike (.grp a) (.grp a') := by
  refine ⟨by simp [Re.caps, h.1], fun α _ bg s => ?_⟩
  simp only [Regex.outs]
  rw [h.outs]

theorem Alike.rep {a a' : Re} (h : Alike a a') (min : Nat) (max : Option Nat) : Alike (.rep a min max) (.rep a' min max) := by
  refine ⟨h.1, fun α _ bg s => ?_⟩
  cases max with
  | some m => simp only [Regex.outs, h.outs]
  | none => cases min <;> simp only [Regex.outs, h.outs]

theorem Alike.alt {a a' b b' : Re} (h : Alike a a') (h' : Alike b b') : Alike (.alt a b) (.alt a' b') := by
  refine ⟨by simp [Re.caps, h.1, h'.1], fun α _ bg s => ?_⟩
  simp only [Regex.outs]
  rw [h.outs, h'.outs]

theorem seq_eps (a : Re) : Alike (.seq a .eps) a := by
  refine ⟨by simp [Re.caps], fun α _ bg s => ?_⟩
  simp [Regex.outs, andThen]

theorem eps_seq (a : Re) : Alike (.seq .eps a) a := by
  refine ⟨by simp [Re.caps], fun α _ bg s => ?_⟩
  simp [Regex.outs, andThen]

theorem seq_assoc (a b c : Re) : Alike (.seq (.seq a b) c) (.seq a (.seq b c)) := by
  refine ⟨by simp [Re.caps, Nat.add_assoc], fun α _ bg s => ?_⟩
  simp only [Regex.outs, andThen, List.flatMap_assoc, List.flatMap_map, List.map_flatMap, List.map_map]
  congr 1
  funext r
  congr 1
  funext q
  have he : (r.txt ++ q.txt).isEmpty = (r.txt.isEmpty && q.txt.isEmpty) := by cases r.txt <;> simp
  simp [Function.comp_def, List.append_assoc, Bool.and_assoc, he]

theorem seqRe_append (l m : List Re) : Alike (seqRe (l ++ m)) (.seq (seqRe l) (seqRe m)) := by
  induction l with
  | nil => exact (eps_seq _).symm
  | cons a l ih => exact (Alike.seq (Alike.refl a) ih).trans (seq_assoc _ _ _).symm

theorem seqRe_all (l : List Re) : Alike (seqRe l) (Re.all l) := by
  induction l with
  | nil => exact Alike.refl _
  | cons a l ih =>
    cases l with
    | nil => exact seq_eps a
    | cons b l => exact Alike.seq (Alike.refl a) ih

/-- Everything a program finds with one it finds with the other. -/
theorem Alike.search {a b : Re} (h : Alike a b) (s : List α) (p : Nat) : search a s p = search b s p := by
  unfold Regex.search
  have : ∀ n p, searchLoop a s n p = searchLoop b s n p := by
    intro n
    induction n with
    | zero => intro p; rfl
    | succ n ih =>
      intro p
      simp only [searchLoop, execAt, h.outs, ih]
  exact this _ _

theorem Alike.parts {a b : Re} (h : Alike a b) (r : Hit α) : parts a r = parts b r := by unfold Regex.parts; rw [h.1]

theorem Alike.findSub {a b : Re} (h : Alike a b) (s : List α) : findSub a s = findSub b s := by
  unfold Regex.findSub
  rw [h.search]
  congr 1
  funext m
  exact h.parts m.2

theorem Alike.matchString {a b : Re} (h : Alike a b) (s : List α) : matchString a s = matchString b s := by
  unfold Regex.matchString
  rw [h.search]

theorem Alike.allLoop {a b : Re} (h : Alike a b) (s : List α) : ∀ n p prev, allLoop a s n p prev = allLoop b s n p prev := by
  intro n
  induction n with
  | zero => intro p prev; rfl
  | succ n ih =>
    intro p prev
    simp only [Regex.allLoop, h.search, ih]

theorem Alike.findAllString {a b : Re} (h : Alike a b) (s : List α) : findAllString a s = findAllString b s := by
  unfold Regex.findAllString
  rw [h.allLoop]

theorem Alike.findAllSub {a b : Re} (h : Alike a b) (s : List α) : findAllSub a s = findAllSub b s := by
  unfold Regex.findAllSub
  rw [h.allLoop]
  congr 1
  funext r
  exact h.parts r

theorem Alike.replaceAll {a b : Re} (h : Alike a b) (s repl : List α) : replaceAll a s repl = replaceAll b s repl := by
  unfold Regex.replaceAll
  have : ∀ n p last, replLoop a repl s n p last = replLoop b repl s n p last := by
    intro n
    induction n with
    | zero => intro p last; rfl
    | succ n ih =>
      intro p last
      simp only [replLoop, h.search, ih]
  exact this _ _ _

/-! ### Reading routes -/

theorem lex_quote (c : Char) (s : List Char) : lexRe 0 (quote c ++ s) = (lexRe 0 s).map (.atom (.lit c) :: ·) := by
  unfold quote
  by_cases h : c ∈ "\\.+*?()|[]{}^$".toList
  · rw [if_pos h]
    have hp : isPunct c = true := by
      have : ∀ c ∈ "\\.+*?()|[]{}^$".toList, isPunct c = true := by decide
      exact this c h
    show lexRe 0 ('\\' :: c :: s) = _
    simp [lexRe, tokAt, hp]
  · rw [if_neg h]
    have h : c ∉ ['\\', '.', '+', '*', '?', '(', ')', '|', '[', ']', '{', '}', '^', '$'] := h
    simp only [List.mem_cons, List.not_mem_nil, or_false, not_or] at h
    obtain ⟨h1, h2, h3, h4, h5, h6, h7, h8, h9, h10, h11, h12, h13, h14⟩ := h
    show lexRe 0 (c :: s) = _
    simp [lexRe, tokAt, h1, h2, h3, h4, h5, h6, h7, h8, h9, h10, h11, h12, h13, h14]

theorem Compiled.map_map {A B C : Type} (f : A → B) (g : B → C) (x : Compiled A) : (x.map f).map g = x.map (g ∘ f) := by cases x <;> rfl

theorem lex_text (t : List Char) (s : List Char) : lexRe 0 (t.flatMap quote ++ s) = (lexRe 0 s).map (t.map (fun c => .atom (.lit c)) ++ ·) := by
  induction t with
  | nil => cases h : lexRe 0 s <;> simp [Compiled.map, h]
  | cons c t ih =>
    rw [List.flatMap_cons, List.append_assoc, lex_quote, ih, Compiled.map_map]
    rfl

/-- The parts of UUIDGroup. -/
def uuidToks : List Tok :=
  [.open, .atom hexRe, .rep 8 (some 8), .atom (.lit '-'), .atom hexRe, .rep 4 (some 4), .atom (.lit '-'), .atom hexRe, .rep 4 (some 4), .atom (.lit '-'),
    .atom hexRe, .rep 4 (some 4), .atom (.lit '-'), .atom hexRe, .rep 12 (some 12), .close]

theorem lex_uuid (s : List Char) : lexRe 0 (uuidGroup ++ s) = (lexRe 0 s).map (uuidToks ++ ·) := by
  have : lexRe 0 (uuidGroup ++ s) = (((((((((((((((((lexRe 0 s).map (.close :: ·)).map (.rep 12 (some 12) :: ·)).map (.atom hexRe :: ·)).map (.atom (.lit '-') :: ·)).map
    (.rep 4 (some 4) :: ·)).map (.atom hexRe :: ·)).map (.atom (.lit '-') :: ·)).map (.rep 4 (some 4) :: ·)).map (.atom hexRe :: ·)).map (.atom (.lit '-') :: ·)).map
    (.rep 4 (some 4) :: ·)).map (.atom hexRe :: ·)).map (.atom (.lit '-') :: ·)).map (.rep 8 (some 8) :: ·)).map (.atom hexRe :: ·)).map (.open :: ·)) := by
    rfl
  rw [this]
  cases lexRe 0 s <;> rfl

/-- The parts of a piece. -/
def pieceToks : Piece → List Tok
  | .text s => s.map fun c => .atom (.lit c)
  | .uuid => uuidToks

theorem lex_pieces (ps : List Piece) (s : List Char) : lexRe 0 (ps.flatMap pieceText ++ s) = (lexRe 0 s).map (ps.flatMap pieceToks ++ ·) := by
  induction ps with
  | nil => cases h : lexRe 0 s <;> simp [Compiled.map, h]
  | cons p ps ih =>
    rw [List.flatMap_cons, List.append_assoc]
    have : lexRe 0 (pieceText p ++ (ps.flatMap pieceText ++ s)) = (lexRe 0 (ps.flatMap pieceText ++ s)).map (pieceToks p ++ ·) := by
      cases p with
      | text t => exact lex_text t _
      | uuid => exact lex_uuid _
    rw [this, ih, Compiled.map_map]
    congr 1
    funext ts
    simp

/-- What UUIDGroup is read as. -/
def uuidSeq : Re := seqRe [.rep hexRe 8 (some 8), .lit '-', .rep hexRe 4 (some 4), .lit '-', .rep hexRe 4 (some 4), .lit '-', .rep hexRe 4 (some 4), .lit '-',
    .rep hexRe 12 (some 12)]

/-- What the pieces are read as. -/
def items : Nat → List Piece → List Re
  | _, [] => []
  | i, .text s :: ps => s.map .lit ++ items i ps
  | i, .uuid :: ps => .cap (i + 1) uuidSeq :: items (i + 1) ps

theorem build_text (t : List Char) : ∀ (alts cur : List Re) (n : Nat) (ts : List Tok),
    build ⟨none, alts, cur⟩ [] n false (t.map (fun c => .atom (.lit c)) ++ ts) = build ⟨none, alts, (t.map Re.lit).reverse ++ cur⟩ [] n false ts := by
  induction t with
  | nil => intro alts cur n ts; rfl
  | cons c t ih =>
    intro alts cur n ts
    have : build ⟨none, alts, cur⟩ [] n false ((c :: t).map (fun c => Tok.atom (.lit c)) ++ ts) =
        build ⟨none, alts, .lit c :: cur⟩ [] n false (t.map (fun c => .atom (.lit c)) ++ ts) := rfl
    rw [this, ih]
    simp

theorem build_uuid (alts cur : List Re) (n : Nat) (ts : List Tok) :
    build ⟨none, alts, cur⟩ [] n false (uuidToks ++ ts) = build ⟨none, alts, .cap (n + 1) uuidSeq :: cur⟩ [] (n + 1) false ts := by
  rfl

theorem build_pieces (ps : List Piece) : ∀ (alts cur : List Re) (n : Nat) (ts : List Tok), ∃ m,
    build ⟨none, alts, cur⟩ [] n false (ps.flatMap pieceToks ++ ts) = build ⟨none, alts, (items n ps).reverse ++ cur⟩ [] m false ts := by
  induction ps with
  | nil => intro alts cur n ts; exact ⟨n, rfl⟩
  | cons p ps ih =>
    intro alts cur n ts
    rw [List.flatMap_cons, List.append_assoc]
    cases p with
    | text t =>
      obtain ⟨m, h⟩ := ih alts ((t.map Re.lit).reverse ++ cur) n ts
      refine ⟨m, ?_⟩
      rw [show pieceToks (.text t) = t.map (fun c => .atom (.lit c)) from rfl, build_text, h]
      simp [items]
    | uuid =>
      obtain ⟨m, h⟩ := ih alts (.cap (n + 1) uuidSeq :: cur) (n + 1) ts
      refine ⟨m, ?_⟩
      rw [show pieceToks .uuid = uuidToks from rfl, build_uuid, h]
      simp [items]

theorem compile_route (ps : List Piece) : compile (routeText ps) = .ok (seqRe (.bol :: (items 0 ps ++ [.eol]))) := by
  have h : lexRe 0 (routeText ps) = .ok (.atom .bol :: (ps.flatMap pieceToks ++ [.atom .eol])) := by
    unfold routeText
    rw [List.append_assoc]
    have : lexRe 0 (['^'] ++ (ps.flatMap pieceText ++ ['$'])) = (lexRe 0 (ps.flatMap pieceText ++ ['$'])).map (.atom .bol :: ·) := rfl
    rw [this, lex_pieces]
    rfl
  unfold compile
  rw [h]
  obtain ⟨m, hm⟩ := build_pieces ps [] [.bol] 0 [.atom .eol]
  have : build ⟨none, [], []⟩ [] 0 false (.atom .bol :: (ps.flatMap pieceToks ++ [.atom .eol])) =
      build ⟨none, [], [.bol]⟩ [] 0 false (ps.flatMap pieceToks ++ [.atom .eol]) := rfl
  simp only [this, hm]
  simp [build, Frame.body, altRe]

theorem items_alike (ps : List Piece) : ∀ n, Alike (seqRe (items n ps)) (piecesRe (n + 1) ps) := by
  induction ps with
  | nil => intro n; exact Alike.refl _
  | cons p ps ih =>
    intro n
    cases p with
    | text t =>
      refine (seqRe_append _ _).trans (Alike.seq ?_ (ih n))
      have : ∀ t : List Char, Alike (seqRe (t.map Re.lit)) (textRe t) := by
        intro t
        induction t with
        | nil => exact Alike.refl _
        | cons c t ih => exact Alike.seq (Alike.refl _) ih
      exact this t
    | uuid => exact Alike.seq (Alike.cap _ (seqRe_all _)) (ih (n + 1))

theorem route_alike (ps : List Piece) : Alike (seqRe (.bol :: (items 0 ps ++ [.eol]))) (routeRe ps) :=
  Alike.seq (Alike.refl _) ((seqRe_append _ _).trans (Alike.seq (items_alike ps 0) (seq_eps _)))

/-! ### C136 -/

/-- C136. The patterns of the repository, as they are written in the source, are read as the expressions of Verif/Regex/Model.lean (the same matches,
groups and replacements for every text). -/
theorem c136_sources :
    (∃ re, compile "(-?)([0-9]*)[.]?([0-9]*)".toList = .ok re ∧ ∀ s : List Char, findSub re s = findSub decimalRe s) ∧
    (∃ re, compile "[A-Z][a-z]*".toList = .ok re ∧ ∀ s : List Nat, findAllString re s = findAllString camelRe s) ∧
    (∃ re, compile "-?[0-9]+([.][0-9]+)?(e[0-9]+)?".toList = .ok re ∧
      ∀ s : List Char, findSub re s = findSub numberRe s ∧ matchString re s = matchString numberRe s) ∧
    (∃ re, compile "(?:\\.([^.\\[\\]]+)|\\[([0-9]+)\\])".toList = .ok re ∧
      ∀ s repl : List Char, findAllSub re s = findAllSub pathRe s ∧ replaceAll re s repl = replaceAll pathRe s repl) := by
  refine ⟨⟨_, rfl, fun s => ?_⟩, ⟨_, rfl, fun s => ?_⟩, ⟨_, rfl, fun s => ?_⟩, ⟨_, rfl, fun s repl => ?_⟩⟩
  · have h : Alike _ decimalRe := Alike.seq (Alike.cap _ (seq_eps _)) (Alike.seq (Alike.cap _ (seq_eps _)) (Alike.seq (Alike.refl _)
      ((seq_eps _).trans (Alike.cap _ (seq_eps _)))))
    exact h.findSub s
  · have h : Alike _ camelRe := Alike.seq (Alike.refl _) (seq_eps _)
    exact h.findAllString s
  · have h : Alike _ numberRe := Alike.seq (Alike.refl _) (Alike.seq (Alike.refl _) (Alike.seq (Alike.rep (Alike.cap _ (Alike.seq (Alike.refl _) (seq_eps _))) _ _)
      ((seq_eps _).trans (Alike.rep (Alike.cap _ (Alike.seq (Alike.refl _) (seq_eps _))) _ _))))
    exact ⟨h.findSub s, h.matchString s⟩
  · have h : Alike _ pathRe := (seq_eps _).trans (Alike.grp (Alike.alt (Alike.seq (Alike.refl _) ((seq_eps _).trans (Alike.cap _ (seq_eps _))))
      (seqRe_all [.lit '[', .cap 2 (seqRe [.rep digitRe 1 none]), .lit ']'] |>.trans (Alike.seq (Alike.refl _) (Alike.seq (Alike.cap _ (seq_eps _)) (Alike.refl _))))))
    exact ⟨h.findAllSub s, h.replaceAll s repl⟩

/-- C136. The text of a route is a valid pattern, and it matches exactly the URLs that consist of its pieces; the parts are the URL and the UUIDs in it in
order. -/
theorem c136_route_text (ps : List Piece) : ∃ re, compile (routeText ps) = .ok re ∧
    ∀ (url : List Char) (parts : List (List Char)), findSub re url = some parts ↔ ∃ qs, Fits ps url qs ∧ parts = url :: qs := by
  refine ⟨_, compile_route ps, fun url parts => ?_⟩
  rw [(route_alike ps).findSub, c136_route]

variable {H : Type}

/-- The Handle calls for routes. -/
def routeCalls (rs : List (List Char × List Piece × H)) : List (HCall H) := rs.map fun r => ⟨r.1, routeText r.2.1, some r.2.2⟩

theorem handle_route (m : List Char) (ps : List Piece) (h : H) (hm : m ≠ []) (hs : List (Reg Re H)) :
    handle compileOpt ⟨m, routeText ps, some h⟩ hs = (none, hs ++ [⟨m, seqRe (.bol :: (items 0 ps ++ [.eol])), h⟩]) := by
  have hp : routeText ps ≠ [] := by simp [routeText]
  simp [handle, prepare, hm, hp, compileOpt, compile_route]

theorem handleAll_routes (rs : List (List Char × List Piece × H)) (hm : ∀ r ∈ rs, r.1 ≠ []) :
    handleAll compileOpt (routeCalls rs) = rs.map fun r => ⟨r.1, seqRe (.bol :: (items 0 r.2.1 ++ [.eol])), r.2.2⟩ := by
  unfold handleAll
  have : ∀ (rs : List (List Char × List Piece × H)) (acc : List (Reg Re H)), (∀ r ∈ rs, r.1 ≠ []) →
      (routeCalls rs).foldl (fun hs c => (handle compileOpt c hs).2) acc = acc ++ rs.map fun r => ⟨r.1, seqRe (.bol :: (items 0 r.2.1 ++ [.eol])), r.2.2⟩ := by
    intro rs
    induction rs with
    | nil => intro acc _; simp [routeCalls]
    | cons r rs ih =>
      intro acc hm
      simp only [routeCalls, List.map_cons, List.foldl_cons]
      rw [handle_route _ _ _ (hm r (by simp))]
      have := ih (acc ++ [⟨r.1, seqRe (.bol :: (items 0 r.2.1 ++ [.eol])), r.2.2⟩]) (fun x hx => hm x (by simp [hx]))
      simp only [routeCalls] at this
      rw [this]
      simp
  simpa using this rs [] hm

theorem serve_routes (rs : List (List Char × List Piece × H)) (hm : ∀ r ∈ rs, r.1 ≠ []) (method url : List Char) :
    serve findSub (handleAll compileOpt (routeCalls rs)) method url = serve findSub (registered rs) method url := by
  rw [handleAll_routes rs hm]
  unfold serve registered
  generalize false = um
  clear hm
  induction rs generalizing um with
  | nil => rfl
  | cons r rs ih =>
    simp only [List.map_cons, serveLoop]
    rw [(route_alike r.2.1).findSub]
    cases findSub (routeRe r.2.1) url with
    | none => exact ih _
    | some parts =>
      simp only
      rw [ih]

/-- C136. Handle, called with a method, the text of a route and a handler, returns nil whatever was registered before. -/
theorem c136_handle_text (m : List Char) (ps : List Piece) (h : H) (hm : m ≠ []) (hs : List (Reg Re H)) :
    (handle compileOpt ⟨m, routeText ps, some h⟩ hs).1 = none := by
  rw [handle_route m ps h hm hs]

/-- C136, from the texts: a zero ServeMux on which Handle was called with the texts of routes calls for a request the handler of the first route
with its method whose pieces make up the URL, with the URL and the UUIDs in it. -/
theorem c136_serve_text (rs : List (List Char × List Piece × H)) (hm : ∀ r ∈ rs, r.1 ≠ []) (method url : List Char) (h : H) (parts : List (List Char)) :
    serve findSub (handleAll compileOpt (routeCalls rs)) method url = .called h parts ↔
      ∃ pre ps post qs, rs = pre ++ (method, ps, h) :: post ∧ Fits ps url qs ∧ parts = url :: qs ∧
        ∀ x ∈ pre, x.1 = method → ∀ qs, ¬ Fits x.2.1 url qs := by
  rw [serve_routes rs hm, c136_serve]

/-- C136, from the texts: what it answers otherwise. -/
theorem c136_serve_text_errors (rs : List (List Char × List Piece × H)) (hm : ∀ r ∈ rs, r.1 ≠ []) (method url : List Char)
    (hno : ∀ x ∈ rs, x.1 = method → ∀ qs, ¬ Fits x.2.1 url qs) :
    ((∃ x ∈ rs, ∃ qs, Fits x.2.1 url qs) →
      serve findSub (handleAll compileOpt (routeCalls rs)) method url = .httpError 405 "Method Not Allowed") ∧
    ((∀ x ∈ rs, ∀ qs, ¬ Fits x.2.1 url qs) → serve findSub (handleAll compileOpt (routeCalls rs)) method url = .httpError 404 "Not Found") := by
  rw [serve_routes rs hm]
  exact c136_serve_errors rs method url hno

/-- Two routes of the same shape; the second is called. -/
example : serve findSub (handleAll compileOpt [⟨"GET".toList, "^/c/([0-9A-Fa-f]{8}-[0-9A-Fa-f]{4}-[0-9A-Fa-f]{4}-[0-9A-Fa-f]{4}-[0-9A-Fa-f]{12})$".toList, some 1⟩,
      ⟨"PUT".toList, "^/c/([0-9A-Fa-f]{8}-[0-9A-Fa-f]{4}-[0-9A-Fa-f]{4}-[0-9A-Fa-f]{4}-[0-9A-Fa-f]{12})$".toList, some 2⟩]) "PUT".toList
    "/c/01234567-89ab-cdef-0123-456789abcdef".toList =
    .called 2 ["/c/01234567-89ab-cdef-0123-456789abcdef".toList, "01234567-89ab-cdef-0123-456789abcdef".toList] :=
  (c136_serve_text [("GET".toList, [.text "/c/".toList, .uuid], 1), ("PUT".toList, [.text "/c/".toList, .uuid], 2)] (by decide) _ _ _ _).2
    ⟨[("GET".toList, [.text "/c/".toList, .uuid], 1)], [.text "/c/".toList, .uuid], [], ["01234567-89ab-cdef-0123-456789abcdef".toList], rfl,
    .text "/c/".toList [.uuid] "01234567-89ab-cdef-0123-456789abcdef".toList _
      (.uuid "01234567-89ab-cdef-0123-456789abcdef".toList [] [] [] sampleUUID .nil), rfl,
    by intro x hx; simp only [List.mem_singleton] at hx; subst hx; intro h; exact absurd h (by decide)⟩

theorem build_text_in (t : List Char) : ∀ (f : Frame) (stack : List Frame) (n : Nat) (ts : List Tok),
    build f stack n false (t.map (fun c => .atom (.lit c)) ++ ts) = build { f with cur := (t.map Re.lit).reverse ++ f.cur } stack n false ts := by
  induction t with
  | nil => intro f stack n ts; rfl
  | cons c t ih =>
    intro f stack n ts
    have : build f stack n false ((c :: t).map (fun c => Tok.atom (.lit c)) ++ ts) =
        build { f with cur := .lit c :: f.cur } stack n false (t.map (fun c => .atom (.lit c)) ++ ts) := rfl
    rw [this, ih]
    simp

/-- C136. A parenthesis in a pattern that is neither escaped nor matched by another makes Handle return an error, and nothing is registered. -/
theorem c136_unbalanced_text (u v m : List Char) (h : H) (hm : m ≠ []) (hs : List (Reg Re H)) (paren : Char) (hp : paren = '(' ∨ paren = ')') :
    compile (u.flatMap quote ++ [paren] ++ v.flatMap quote) = .bad ∧
    handle compileOpt ⟨m, u.flatMap quote ++ [paren] ++ v.flatMap quote, some h⟩ hs = (some .badPattern, hs) := by
  have hb : compile (u.flatMap quote ++ [paren] ++ v.flatMap quote) = .bad := by
    have hv : lexRe 0 (v.flatMap quote) = .ok (v.map fun c => .atom (.lit c)) := by
      have := lex_text v []
      simp only [List.append_nil] at this
      rw [this]
      simp [lexRe, Compiled.map]
    have hq : ∀ x ∈ (v.flatMap quote).head?, x ≠ '?' := by
      intro x hx
      cases v with
      | nil => simp at hx
      | cons c v =>
        rw [List.flatMap_cons] at hx
        unfold quote at hx
        by_cases hc : c ∈ "\\.+*?()|[]{}^$".toList
        · rw [if_pos hc] at hx
          have hx : '\\' = x := Option.some.inj hx
          rw [← hx]
          decide
        · rw [if_neg hc] at hx
          have hx : c = x := Option.some.inj hx
          rintro rfl
          exact hc (by rw [hx]; decide)
    unfold compile
    rw [List.append_assoc, lex_text]
    rcases hp with rfl | rfl
    · have h1 : lexRe 0 (['('] ++ v.flatMap quote) = .ok (.open :: v.map fun c => .atom (.lit c)) := by
        have ht : tokAt '(' (v.flatMap quote) = .ok (.open, 0) := by
          unfold tokAt
          simp only [if_true]
          split
          · rename_i heq; exact absurd rfl (hq '?' (by rw [heq]; simp))
          · rename_i heq; exact absurd rfl (hq '?' (by rw [heq]; simp))
          · rename_i heq; exact absurd rfl (hq '?' (by rw [heq]; simp))
          · rfl
        show lexRe 0 ('(' :: v.flatMap quote) = _
        simp only [lexRe, ht, hv]
        rfl
      rw [h1]
      simp only [Compiled.map]
      rw [build_text_in]
      have : ∀ (f : Frame) (n : Nat) (ts : List Tok), build f [] n false (.open :: ts) = build ⟨some (n + 1), [], []⟩ [f] (n + 1) false ts := fun _ _ _ => rfl
      rw [this]
      have h2 := build_text_in v ⟨some (0 + 1), [], []⟩ [⟨none, [], (u.map Re.lit).reverse ++ []⟩] (0 + 1) []
      simp only [List.append_nil] at h2 ⊢
      rw [h2]
      rfl
    · have h1 : lexRe 0 ([')'] ++ v.flatMap quote) = .ok (.close :: v.map fun c => .atom (.lit c)) := by
        show lexRe 0 (')' :: v.flatMap quote) = _
        have ht : tokAt ')' (v.flatMap quote) = .ok (.close, 0) := rfl
        simp only [lexRe, ht, hv]
        rfl
      rw [h1]
      simp only [Compiled.map]
      rw [build_text_in]
      rfl
  refine ⟨hb, ?_⟩
  have hne : u.flatMap quote ++ [paren] ++ v.flatMap quote ≠ [] := by simp
  generalize u.flatMap quote ++ [paren] ++ v.flatMap quote = w at hb hne ⊢
  simp [handle, prepare, hm, hne, compileOpt, hb]

example : compile "^/c(/d$".toList = .bad ∧ compile "^/c*+$".toList = .bad ∧ compile "^/[9-0]$".toList = .bad ∧ compile "^/[a$".toList = .bad ∧
    compile "^/x{3,2}$".toList = .bad ∧ compile "*".toList = .bad ∧ compile "\\".toList = .bad := by decide +kernel

end Micro.Regex

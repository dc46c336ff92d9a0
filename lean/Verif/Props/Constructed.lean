import Verif.Props.Building
import Verif.Props.Api

/-!
# Constructors that only put their arguments together (C49)
-/

namespace FM.Props
open FM Spec Parser

variable {c : Cfg}

/-- A compound operator is one token. -/
theorem flat_compound {k : Kind} {t : TokRef} (h : Conforms c (.cat .compoundOp) (.node k [.tok t])) : (Node.node k [.tok t]).flat = [t] := by
  cases k <;> first | exact absurd h.1 (by decide) | simp

/-- **C49, compound assignment.**  The operator has white space around it. -/
theorem compoundAssignment_new {v e : Node} {k : Kind} {t : TokRef} (hv : Readable c (.cat .var) v) (ho : Readable c (.cat .compoundOp) (.node k [.tok t]))
    (hb : Gap c (text t.leading)) (hd : Gap c (text t.trailing)) (he : Readable c .expr e) :
    Readable c (.cat .compoundAssignment) (Build.compoundAssignment v (.node k [.tok t]) e) := by
  refine ⟨⟨rfl, rfl, ⟨hv.1, ho.1, he.1, trivial⟩, trivial⟩, ?_, by unfold Build.compoundAssignment; meant⟩
  have h1 : (Build.compoundAssignment v (.node k [.tok t]) e).flat = v.flat ++ t :: e.flat := by
    have hk : (Node.node k [.tok t]).flat = [t] := flat_compound ho.1
    simp [Build.compoundAssignment, hk]
  rw [h1]
  have hk : (Node.node k [.tok t]).flat = [t] := flat_compound ho.1
  exact tidy_append_gap hv.2 (tidy_cons_gap (by have := ho.2; rw [hk] at this; exact this.1) hd he.2) hb

/-- **C49, expression with suffixes.** -/
theorem varExpr_new {p ss : Node} (hp : Readable c (.cat .prefix) p) (hs : Readable c (.many (.cat .suffix)) ss) (ht : Tidy c (p.flat ++ ss.flat))
    (hl : ss.children.getLast?.bind kindOf ≠ some .suffixCall) (hn : ss.children ≠ []) :
    Readable c (.cat .varExpr) (Build.call (Build.varExpr p) c!"with_suffixes" ss) := by
  have e : Build.call (Build.varExpr p) c!"with_suffixes" ss = .node .varExpr [p, ss] := rfl
  rw [e]
  refine ⟨⟨rfl, rfl, ⟨hp.1, hs.1, trivial⟩, hl, fun h => absurd h hn⟩, ?_, by meant⟩
  simpa [flat_varExpr_plain] using ht

/-- **C49, unions of types.** -/
theorem typeUnion_new {lead types : Node} (hlead : Readable c (.opt (Part.sym .pipe)) lead) (ht : Readable c (.list Part.type [Symbol.pipe] .nonempty) types)
    (hx : Tidy c (lead.flat ++ types.flat)) (hm : c.has .luau = true → Members lead types) :
    Readable c (.cat .typeUnion) (Build.typeUnion lead types) := by
  refine ⟨⟨rfl, rfl, ⟨hlead.1, ht.1, trivial⟩, trivial⟩, ?_, ?_⟩
  · simpa [Build.typeUnion] using hx
  · intro hl
    rw [Build.typeUnion, Node.every_node]
    exact ⟨hm hl, by simpa using ⟨hlead.3 hl, ht.3 hl⟩⟩

/-- **C49, intersections of types.** -/
theorem typeIntersection_new {lead types : Node} (hlead : Readable c (.opt (Part.sym .ampersand)) lead) (ht : Readable c (.list Part.type [Symbol.ampersand] .nonempty) types)
    (hx : Tidy c (lead.flat ++ types.flat)) (hm : c.has .luau = true → Members lead types) (ho : ∀ m ∈ elements types, isOne [.tyOptional] m = false) :
    Readable c (.cat .typeIntersection) (Build.typeIntersection lead types) := by
  refine ⟨⟨rfl, rfl, ⟨hlead.1, ht.1, trivial⟩, trivial⟩, ?_, ?_⟩
  · simpa [Build.typeIntersection] using hx
  · intro hl
    rw [Build.typeIntersection, Node.every_node]
    exact ⟨⟨hm hl, ho⟩, by simpa using ⟨hlead.3 hl, ht.3 hl⟩⟩

/-- **C49, interpolated strings**: the sections open and close. -/
theorem interpString_new {segments : Node} {last : TokRef} {s : Node} {ss : List Node} (hs : Conforms c (.many (.cat .interpSegment)) segments) (hl : Term.interp.Is last)
    (hc : segments.children = s :: ss) (h1 : section? s = some .begin) (h2 : ∀ x ∈ ss, section? x ≠ some .end_) (h3 : section? (.tok last) = some .end_) :
    Conforms c (.cat .interpString) (Build.interpString segments last) := by
  refine ⟨rfl, rfl, ⟨hs, hl, trivial⟩, ?_⟩
  show match segments.children with
    | [] => section? (.tok last) = some .simple
    | s :: ss => section? s = some .begin ∧ (∀ x ∈ ss, section? x ≠ some .end_) ∧ section? (.tok last) = some .end_
  rw [hc]
  exact ⟨h1, h2, h3⟩

/-! ## Non-vacuity -/

/-- A symbol with a space on both sides. -/
def spaced (x : Symbol) : TokRef := ⟨[.new (.whitespace c!" ")], .new (.symbol x), [.new (.whitespace c!" ")]⟩

/-- A Luau program made by hand: `x += y`. -/
example : ∃ ast, parse cfgLuau (Node.node .block [.node .vec [.node .tuple [.node .stmtCompound [Build.compoundAssignment (.node .varName [.tok (bareWord c!"x")])
    (.node (.compoundOp .plusEqual) [.tok (spaced .plusEqual)]) (bareVar c!"y")], .node .absent []]], .node .absent []]).display = .ok (.ok ast) := by
  have alone : ∀ x ∈ [c!"x", c!"y"], Alone cfgLuau (.identifier x) := by
    intro x hx
    simp only [List.mem_cons, List.not_mem_nil, or_false] at hx
    rcases hx with rfl | rfl <;> exact ⟨(by rintro ⟨x, k, h⟩; cases h), by decide, _, rfl, rfl, rfl⟩
  have gap : Gap cfgLuau c!" " := gap_of_blanks (f := c!" ") (by decide) (by decide)
  have h2 := compoundAssignment_new (c := cfgLuau) (v := .node .varName [.tok (bareWord c!"x")]) (k := .compoundOp .plusEqual) (t := spaced .plusEqual)
    ⟨⟨rfl, rfl, ⟨⟨_, rfl⟩, trivial⟩, trivial⟩, tidy_one (bareWord_readable (alone c!"x" (by decide))).2, fun _ => by simp [Chosen]⟩
    ⟨⟨rfl, rfl, ⟨⟨_, by decide, rfl⟩, trivial⟩, trivial⟩, tidy_one ⟨⟨(by rintro ⟨x, k, h⟩; cases h), by decide, _, rfl, rfl, rfl⟩, gap.1, .inr gap⟩, fun _ => by simp [Chosen]⟩
    gap gap (bareVar_readable (alone c!"y" (by decide)))
  have hb : Readable cfgLuau .block (Node.node .block [.node .vec [.node .tuple [.node .stmtCompound [Build.compoundAssignment (.node .varName [.tok (bareWord c!"x")])
      (.node (.compoundOp .plusEqual) [.tok (spaced .plusEqual)]) (bareVar c!"y")], .node .absent []]], .node .absent []]) := by
    refine ⟨⟨rfl, rfl, ⟨⟨⟨⟨rfl, rfl, ⟨h2.1, trivial⟩, trivial⟩, rfl, trivial⟩, trivial⟩, rfl, trivial⟩, trivial⟩, ?_,
      fun hl => ⟨trivial, ⟨trivial, ⟨trivial, ⟨trivial, h2.3 hl, trivial⟩, ⟨trivial, trivial⟩, trivial⟩, trivial⟩, ⟨trivial, trivial⟩, trivial⟩⟩
    simpa using h2.2
  obtain ⟨ast, h3, _⟩ := readable_parses cfgLuau_reachable hb
  exact ⟨ast, h3⟩

/-- `f . x`, made by hand, is one. -/
example : Readable cfg51 (.cat .varExpr) (Build.call (Build.varExpr (.node .prefixName [.tok (bareWord c!"f")])) c!"with_suffixes"
    (.node .vec [.node .suffixIndex [.node .indexDot [.tok (spaced .dot), .tok (bareWord c!"x")]]])) := by
  have alone : ∀ x ∈ [c!"f", c!"x"], Alone cfg51 (.identifier x) := by
    intro x hx
    simp only [List.mem_cons, List.not_mem_nil, or_false] at hx
    rcases hx with rfl | rfl <;> exact ⟨(by rintro ⟨x, k, h⟩; cases h), by decide, _, rfl, rfl, rfl⟩
  have gap : Gap cfg51 c!" " := gap_of_blanks (f := c!" ") (by decide) (by decide)
  have hf := (bareWord_readable (alone c!"f" (by decide))).2
  have ht : Tidy cfg51 [spaced .dot, bareWord c!"x"] :=
    tidy_cons_gap ⟨⟨(by rintro ⟨x, k, h⟩; cases h), by decide, _, rfl, rfl, rfl⟩, gap.1, .inr gap⟩ gap (tidy_one (bareWord_readable (alone c!"x" (by decide))).2)
  exact varExpr_new ⟨⟨rfl, rfl, ⟨⟨_, rfl⟩, trivial⟩, trivial⟩, tidy_one hf, (fun h => by cases h)⟩
    ⟨⟨⟨rfl, rfl, ⟨⟨rfl, rfl, ⟨⟨_, by decide, rfl⟩, ⟨_, rfl⟩, trivial⟩, trivial⟩, trivial⟩, trivial⟩, trivial⟩, ht, (fun h => by cases h)⟩
    (tidy_append_gap (xs := [bareWord c!"f"]) (tidy_one hf) ht gap) (by decide) (by simp [Node.children])

/-- `T | U`, made by hand, is a union. -/
example : Readable cfgLuau (.cat .typeUnion) (Build.typeUnion (.node .absent []) (.node .punct [.node .pairPunct [.node .tyBasic [.tok (bareWord c!"T")], .tok (spaced .pipe)],
    .node .pairEnd [.node .tyBasic [.tok (bareWord c!"U")]]])) := by
  have alone : ∀ x ∈ [c!"T", c!"U"], Alone cfgLuau (.identifier x) := by
    intro x hx
    simp only [List.mem_cons, List.not_mem_nil, or_false] at hx
    rcases hx with rfl | rfl <;> exact ⟨(by rintro ⟨x, k, h⟩; cases h), by decide, _, rfl, rfl, rfl⟩
  have gap : Gap cfgLuau c!" " := gap_of_blanks (f := c!" ") (by decide) (by decide)
  have ht : Tidy cfgLuau ([bareWord c!"T"] ++ [spaced .pipe, bareWord c!"U"]) :=
    tidy_append_gap (tidy_one (bareWord_readable (alone c!"T" (by decide))).2)
      (tidy_cons_gap ⟨⟨(by rintro ⟨x, k, h⟩; cases h), by decide, _, rfl, rfl, rfl⟩, gap.1, .inr gap⟩ gap (tidy_one (bareWord_readable (alone c!"U" (by decide))).2)) gap
  refine typeUnion_new ⟨?_, trivial, fun _ => ⟨trivial, trivial⟩⟩ ⟨?_, ht, fun _ => ?_⟩ ht fun _ => ⟨by decide, by decide, by decide, by decide, by decide⟩
  · trivial
  · exact ⟨⟨⟨⟨rfl, rfl, rfl, ⟨.inl ⟨_, rfl⟩, trivial⟩, trivial⟩, ⟨_, by decide, rfl⟩, trivial⟩, ⟨⟨rfl, rfl, rfl, ⟨.inl ⟨_, rfl⟩, trivial⟩, trivial⟩, trivial⟩, trivial⟩, by simp [kindOf], by simp, by simp [kindOf]⟩
  · simp only [Chosen, Node.every_node]
    simp [Chosen]
    exact ⟨rfl, rfl⟩

/-- The sections of `` `a{x}b` ``. -/
example : Conforms cfgLuau (.cat .interpString) (Build.interpString (.node .vec [.node .interpSegment [.tok ⟨[], .new (.interpolated c!"a" .begin), []⟩, bareVar c!"x"]])
    ⟨[], .new (.interpolated c!"b" .end_), []⟩) :=
  interpString_new (s := .node .interpSegment [.tok ⟨[], .new (.interpolated c!"a" .begin), []⟩, bareVar c!"x"]) (ss := [])
    ⟨⟨rfl, rfl, ⟨rfl, ⟨rfl, rfl, ⟨⟨rfl, rfl, ⟨⟨_, rfl⟩, trivial⟩, trivial⟩, trivial⟩, rfl⟩, trivial⟩, trivial⟩, trivial⟩ rfl rfl rfl (by simp) rfl

end FM.Props

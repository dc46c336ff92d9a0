import Verif.Proofs.Within
import Verif.Proofs.Parser.Listed

/-!
# The braces that the tokens of a tree open and close
-/

namespace FM
open Spec FM.Parser

variable {c : Cfg} {R₀ : TokRef → Prop}

/-! ## The open braces -/

/-- What a token does to the open braces; `none` if it is not one that may stand there. -/
def stepBraces (ty : TokenType) (bs : List BraceType) : Option (List BraceType) :=
  match ty with
  | .symbol .leftBrace => some (.normal :: bs)
  | .symbol .rightBrace => if bs.head? = some .interpolatedString then none else some bs.tail
  | .interpolated _ .begin => some (.interpolatedString :: bs)
  | .interpolated _ .middle => if bs.head? = some .interpolatedString then some bs else none
  | .interpolated _ .end_ => if bs.head? = some .interpolatedString then some bs.tail else none
  | _ => some bs

def runBraces : List TokRef → List BraceType → Option (List BraceType)
  | [], bs => some bs
  | t :: ts, bs => (stepBraces t.token.type bs).bind (runBraces ts)

theorem runBraces_append (a b : List TokRef) : ∀ bs, runBraces (a ++ b) bs = (runBraces a bs).bind (runBraces b) := by
  induction a with
  | nil => intro bs; rfl
  | cons t a ih =>
    intro bs
    simp only [List.cons_append, runBraces]
    cases stepBraces t.token.type bs with
    | none => rfl
    | some b' => exact ih b'

/-- Strings that are open. -/
abbrev strings (j : Nat) : List BraceType := List.replicate j .interpolatedString

/-- The tokens do not close what was open before them, and leave only strings open. -/
def Above (ts : List TokRef) : Prop :=
  ∀ bs bs', runBraces ts bs = some bs' → ∃ j, bs' = strings j ++ bs ∧ ∀ base, runBraces ts base = some (strings j ++ base)

theorem above_nil : Above [] := by
  intro bs bs' h
  cases h
  exact ⟨0, rfl, fun _ => rfl⟩

theorem Above.append {a b : List TokRef} (ha : Above a) (hb : Above b) : Above (a ++ b) := by
  intro bs bs' h
  rw [runBraces_append] at h
  cases e : runBraces a bs with
  | none => rw [e] at h; cases h
  | some b1 =>
    rw [e] at h
    obtain ⟨j, rfl, h2⟩ := ha _ _ e
    obtain ⟨i, rfl, h4⟩ := hb _ _ h
    refine ⟨i + j, by simp [strings, ← List.append_assoc], fun base => ?_⟩
    rw [runBraces_append, h2]
    show runBraces b (strings j ++ base) = _
    rw [h4]
    simp [strings, ← List.append_assoc]

theorem above_flatten : ∀ {L : List (List TokRef)}, (∀ l ∈ L, Above l) → Above L.flatten
  | [], _ => above_nil
  | l :: L, h => by
    rw [List.flatten_cons]
    exact (h l (.head _)).append (above_flatten fun x hx => h x (.tail _ hx))

/-- A token that neither opens nor closes a brace. -/
def BraceFree (ty : TokenType) : Prop := ∀ bs, stepBraces ty bs = some bs

theorem above_free {t : TokRef} (h : BraceFree t.token.type) : Above [t] := by
  intro bs bs' e
  have : ∀ b, runBraces [t] b = some b := fun b => by simp [runBraces, h b]
  rw [this] at e
  cases e
  exact ⟨0, rfl, this⟩

theorem above_braces {o e : TokRef} {l : List TokRef} (ho : o.token.type = .symbol .leftBrace) (he : e.token.type = .symbol .rightBrace) (hl : Above l) :
    Above (o :: (l ++ [e])) := by
  intro bs bs' h
  have run : ∀ b, runBraces (o :: (l ++ [e])) b = (runBraces l (.normal :: b)).bind (runBraces [e]) := by
    intro b
    rw [← runBraces_append]
    simp [runBraces, stepBraces, ho]
  rw [run] at h
  cases e1 : runBraces l (.normal :: bs) with
  | none => rw [e1] at h; cases h
  | some b1 =>
    rw [e1] at h
    obtain ⟨j, rfl, h2⟩ := hl _ _ e1
    have h : runBraces [e] (strings j ++ .normal :: bs) = some bs' := h
    cases j with
    | succ j => simp [runBraces, stepBraces, he, strings, List.replicate_succ] at h
    | zero =>
      simp [runBraces, stepBraces, he, strings] at h
      subst h
      refine ⟨0, rfl, fun base => ?_⟩
      rw [run, h2]
      simp [runBraces, stepBraces, he, strings]

/-- Within a string. -/
def InString (ts : List TokRef) : Prop :=
  ∀ bs bs', runBraces ts (.interpolatedString :: bs) = some bs' →
    ∃ j, bs' = strings j ++ .interpolatedString :: bs ∧ ∀ base, runBraces ts (.interpolatedString :: base) = some (strings j ++ .interpolatedString :: base)

theorem strings_shift (j : Nat) (bs : List BraceType) : strings j ++ .interpolatedString :: bs = .interpolatedString :: (strings j ++ bs) := by
  have : strings j ++ [.interpolatedString] = .interpolatedString :: strings j := by
    rw [← List.replicate_succ, List.replicate_succ']
  rw [← List.cons_append, ← this, List.append_assoc]
  rfl

theorem InString.append {a b : List TokRef} (ha : InString a) (hb : InString b) : InString (a ++ b) := by
  intro bs bs' h
  rw [runBraces_append] at h
  cases e : runBraces a (.interpolatedString :: bs) with
  | none => rw [e] at h; cases h
  | some b1 =>
    rw [e] at h
    obtain ⟨j, rfl, h2⟩ := ha _ _ e
    have h : runBraces b (strings j ++ .interpolatedString :: bs) = some bs' := h
    rw [strings_shift] at h
    obtain ⟨i, rfl, h4⟩ := hb _ _ h
    refine ⟨i + j, ?_, fun base => ?_⟩
    · rw [← strings_shift]
      simp [strings, ← List.append_assoc]
    rw [runBraces_append, h2]
    show runBraces b (strings j ++ .interpolatedString :: base) = _
    rw [strings_shift, h4, ← strings_shift]
    simp [strings, ← List.append_assoc]

theorem inString_flatten : ∀ {L : List (List TokRef)}, (∀ l ∈ L, InString l) → InString L.flatten
  | [], _ => by
    intro bs bs' h
    cases h
    exact ⟨0, rfl, fun _ => rfl⟩
  | l :: L, h => by
    rw [List.flatten_cons]
    exact (h l (.head _)).append (inString_flatten fun x hx => h x (.tail _ hx))

theorem Above.inString {l : List TokRef} (h : Above l) : InString l := by
  intro bs bs' e
  obtain ⟨j, h1, h2⟩ := h _ _ e
  exact ⟨j, h1, fun base => h2 _⟩

theorem inString_section {t : TokRef} {x : Text} {k : InterpKind} (ht : t.token.type = .interpolated x k) (hk : k ≠ .end_) : InString [t] := by
  intro bs bs' h
  cases k with
  | end_ => exact absurd rfl hk
  | begin =>
    simp [runBraces, stepBraces, ht] at h
    exact ⟨1, by rw [← h]; rfl, fun base => by simp [runBraces, stepBraces, ht, strings]⟩
  | middle =>
    simp [runBraces, stepBraces, ht] at h
    exact ⟨0, by rw [← h]; rfl, fun base => by simp [runBraces, stepBraces, ht, strings]⟩
  | simple =>
    simp [runBraces, stepBraces, ht] at h
    exact ⟨0, by rw [← h]; rfl, fun base => by simp [runBraces, stepBraces, ht, strings]⟩

theorem above_string {o e : TokRef} {l : List TokRef} {x y : Text} (ho : o.token.type = .interpolated x .begin) (he : e.token.type = .interpolated y .end_)
    (hl : InString l) : Above (o :: (l ++ [e])) := by
  intro bs bs' h
  have run : ∀ b, runBraces (o :: (l ++ [e])) b = (runBraces l (.interpolatedString :: b)).bind (runBraces [e]) := by
    intro b
    rw [← runBraces_append]
    simp [runBraces, stepBraces, ho]
  have last : ∀ j b, runBraces [e] (strings j ++ .interpolatedString :: b) = some (strings j ++ b) := by
    intro j b
    rw [strings_shift]
    simp [runBraces, stepBraces, he]
  rw [run] at h
  cases e1 : runBraces l (.interpolatedString :: bs) with
  | none => rw [e1] at h; cases h
  | some b1 =>
    rw [e1] at h
    obtain ⟨j, rfl, h2⟩ := hl _ _ e1
    have h : runBraces [e] (strings j ++ .interpolatedString :: bs) = some bs' := h
    rw [last] at h
    cases h
    refine ⟨j, rfl, fun base => ?_⟩
    rw [run, h2]
    exact last j base

/-! ## Trees -/

/-- No token of the part itself is a brace or a section of a string. -/
def Spec.Part.quiet : Part → Bool
  | .tok (.sym ss) => !ss.contains .leftBrace && !ss.contains .rightBrace
  | .tok .interp => false
  | .tok _ => true
  | .span o e => o != .leftBrace && o != .rightBrace && e != .leftBrace && e != .rightBrace
  | .cat a => a != .interpSegment
  | .type => true
  | .opt p | .many p | .some p => p.quiet
  | .list p seps _ => p.quiet && !seps.contains .leftBrace && !seps.contains .rightBrace
  | .pair p q => p.quiet && q.quiet

/-- The kinds of nodes with braces. -/
def Kind.loud : Kind → Bool
  | .tableCtor | .tyArray | .tyTable | .interpString | .interpSegment => true
  | _ => false

theorem production_quiet (f : Features) {k : Kind} (h : k.loud = false) : ∀ p ∈ production f k, p.quiet = true := by
  rw [← List.all_eq_true]
  cases k with
  | indexDot => simp only [production]; cases f.cfxlua <;> rfl
  | localAssignment => simp only [production]; cases f.cfxlua <;> rfl
  | binOp o => cases o <;> rfl
  | unOp o => cases o <;> rfl
  | compoundOp o => cases o <;> rfl
  | _ => first | rfl | cases h

theorem neutral_of {p : Term} {t : TokRef} (h : p.Is t) (hq : Part.quiet (.tok p) = true) : BraceFree t.token.type := by
  intro bs
  cases p with
  | sym ss =>
    obtain ⟨s, hs, e⟩ := h
    rw [e]
    simp only [Part.quiet, Bool.and_eq_true, Bool.not_eq_true', List.contains_eq_mem, decide_eq_false_iff_not] at hq
    cases s <;> first | rfl | exact absurd hs hq.1 | exact absurd hs hq.2
  | name => obtain ⟨x, e⟩ := h; rw [e]; rfl
  | nameOrNil => rcases h with ⟨x, e⟩ | e <;> rw [e] <;> rfl
  | word ws => obtain ⟨x, _, e⟩ := h; rw [e]; rfl
  | string => cases e : t.token.type <;> rw [Term.Is, e] at h <;> first | rfl | cases h
  | number => cases e : t.token.type <;> rw [Term.Is, e] at h <;> first | rfl | cases h
  | interp => cases hq

/-- The node is a part of a production, or an element of a list; `b` says whether only quiet ones count. -/
def Fit (c : Cfg) (b : Bool) (n : Node) : Prop :=
  (∃ q, Conforms c q n ∧ (b = true → q.quiet = true)) ∨
  ∃ j ys, n = .node j ys ∧ (j = .pairEnd ∨ j = .pairPunct) ∧ ∀ y ∈ ys, ∃ q, Conforms c q y ∧ (b = true → q.quiet = true)

theorem pairs_child {p : Part} {seps : List Symbol} : ∀ {cs : List Node}, ConformsPairs c p seps cs → ∀ x ∈ cs,
    ∃ j ys, x = .node j ys ∧ (j = .pairEnd ∨ j = .pairPunct) ∧ ∀ y ∈ ys, Conforms c p y ∨ Conforms c (.tok (.sym seps)) y
  | [], _ => nofun
  | y :: cs, h => by
    have hh : (∃ j ys, y = .node j ys ∧ (j = .pairEnd ∨ j = .pairPunct) ∧ ∀ y ∈ ys, Conforms c p y ∨ Conforms c (.tok (.sym seps)) y) ∧
        ConformsPairs c p seps cs := by
      unfold ConformsPairs at h
      split at h
      · cases ‹y :: cs = []›
      · rename_i ds ns heq
        cases heq
        refine ⟨⟨_, _, rfl, .inl rfl, fun z hz => ?_⟩, h.2⟩
        obtain ⟨q, hq, g⟩ := conformsAll_child h.1 z hz
        obtain rfl := List.mem_singleton.1 hq
        exact .inl g
      · rename_i ds ns heq
        cases heq
        refine ⟨⟨_, _, rfl, .inr rfl, fun z hz => ?_⟩, h.2⟩
        obtain ⟨q, hq, g⟩ := conformsAll_child h.1 z hz
        simp only [List.mem_cons, List.not_mem_nil, or_false] at hq
        rcases hq with rfl | rfl
        · exact .inl g
        · exact .inr g
      · exact h.elim
    intro x hx
    rcases List.mem_cons.1 hx with rfl | hx
    · exact hh.1
    · exact pairs_child hh.2 x hx

/-- The parts that the children of a conforming node are. -/
theorem conforms_child {p : Part} {k : Kind} {cs : List Node} {b : Bool} (h : Conforms c p (.node k cs)) (hb : b = true → p.quiet = true ∧ k.loud = false) :
    ∀ x ∈ cs, Fit c b x := by
  have prod : ConformsAll c (production c.feat k) cs → ∀ x ∈ cs, Fit c b x := by
    intro h x hx
    obtain ⟨q, hq, h⟩ := conformsAll_child h x hx
    exact .inl ⟨q, h, fun e => production_quiet _ (hb e).2 q hq⟩
  cases p with
  | tok t => simp [Conforms] at h
  | span o e =>
    cases k <;> simp only [Conforms] at h
    intro x hx
    obtain ⟨q, hq, h⟩ := conformsAll_child h x hx
    refine .inl ⟨q, h, fun e' => ?_⟩
    have hp := (hb e').1
    simp only [Part.quiet, Bool.and_eq_true, bne_iff_ne, ne_eq] at hp
    simp only [List.mem_cons, List.not_mem_nil, or_false] at hq
    obtain ⟨⟨⟨h1, h2⟩, h3⟩, h4⟩ := hp
    rcases hq with rfl | rfl
    · simp [Part.quiet, Ne.symm h1, Ne.symm h2]
    · simp [Part.quiet, Ne.symm h3, Ne.symm h4]
  | cat a => rw [Conforms] at h; exact prod h.2.2.1
  | type => rw [Conforms] at h; exact prod h.2.2.2.1
  | opt p =>
    cases k <;> simp only [Conforms] at h
    · subst h; nofun
    · intro x hx
      obtain ⟨q, hq, g⟩ := conformsAll_child h x hx
      obtain rfl := List.mem_singleton.1 hq
      exact .inl ⟨q, g, fun e => (hb e).1⟩
  | many p =>
    cases k <;> simp only [Conforms] at h
    exact fun x hx => .inl ⟨p, conformsEach_child h x hx, fun e => (hb e).1⟩
  | some p =>
    cases k <;> simp only [Conforms] at h
    exact fun x hx => .inl ⟨p, conformsEach_child h.1 x hx, fun e => (hb e).1⟩
  | list p seps style =>
    cases k <;> simp only [Conforms] at h
    intro x hx
    obtain ⟨j, ys, rfl, hj, hy⟩ := pairs_child h.1 x hx
    refine .inr ⟨j, ys, rfl, hj, fun y hm => ?_⟩
    rcases hy y hm with h | h
    · refine ⟨p, h, fun e => ?_⟩
      have := (hb e).1
      simp only [Part.quiet, Bool.and_eq_true] at this
      exact this.1.1
    · refine ⟨_, h, fun e => ?_⟩
      have := (hb e).1
      simp only [Part.quiet, Bool.and_eq_true] at this
      rw [Part.quiet, this.1.2, this.2]
      rfl
  | pair p q =>
    cases k <;> simp only [Conforms] at h
    intro x hx
    obtain ⟨q, hq, h⟩ := conformsAll_child h x hx
    refine .inl ⟨q, h, fun e => ?_⟩
    have hp := (hb e).1
    simp only [Part.quiet, Bool.and_eq_true] at hp
    simp only [List.mem_cons, List.not_mem_nil, or_false] at hq
    rcases hq with rfl | rfl
    · exact hp.1
    · exact hp.2

theorem Fit.child {b : Bool} {k : Kind} {cs : List Node} (h : Fit c b (.node k cs)) (hb : b = true → k.loud = false) : ∀ x ∈ cs, Fit c b x := by
  rcases h with ⟨q, h, hq⟩ | ⟨j, ys, e, -, h⟩
  · exact conforms_child h fun e => ⟨hq e, hb e⟩
  · cases e
    exact fun x hx => .inl (h x hx)

/-- A part of a conforming tree conforms to the productions of its kind. -/
theorem conforms_within {n m : Node} (hw : Within m n) : Fit c false n → ∀ {k cs a}, m = .node k cs → k.cat = some a → Conforms c (.cat a) m := by
  induction hw with
  | self =>
    rintro (⟨q, h, -⟩ | ⟨j, ys, e, hj, -⟩) k cs a rfl hk
    · cases q with
      | cat b =>
        rw [Conforms] at h
        rw [Conforms]
        exact ⟨hk, h.2⟩
      | type =>
        rw [Conforms] at h
        rw [Conforms]
        exact ⟨hk, h.2.2⟩
      | tok => simp [Conforms] at h
      | _ => cases k <;> first | (cases hk; done) | (simp only [Conforms] at h; done)
    · cases e
      rcases hj with rfl | rfl <;> cases hk
  | child hx _ ih => exact fun h k cs a e hk => ih (h.child nofun _ hx) e hk

theorem every_within {p : Kind → List Node → Prop} {n m : Node} (hw : Within m n) (h : n.Every p) : m.Every p := by
  induction hw with
  | self => exact h
  | child hx _ ih => exact ih ((Node.every_node _ _ _).1 h |>.2 _ hx)


/-! ## The braces of a tree -/

theorem loud_cat {b : Bool} {k : Kind} {cs : List Node} (h : Fit c b (.node k cs)) (hk : k.loud = true) :
    ConformsAll c (production c.feat k) cs ∧ Connected c k cs := by
  rcases h with ⟨q, h, -⟩ | ⟨j, ys, e, hj, -⟩
  · cases q with
    | cat b => rw [Conforms] at h; exact h.2.2
    | type => rw [Conforms] at h; exact h.2.2.2
    | tok => simp [Conforms] at h
    | _ => cases k <;> first | (cases hk; done) | (simp only [Conforms] at h; done)
  · cases e
    rcases hj with rfl | rfl <;> cases hk

theorem conf_braces {o e : TokRef} (h : Conforms c (.span .leftBrace .rightBrace) (.spanOf (.tok o) (.tok e))) :
    o.token.type = .symbol .leftBrace ∧ e.token.type = .symbol .rightBrace := by
  simpa [Node.spanOf, Conforms, ConformsAll, Term.Is] using h

theorem section_of {t : TokRef} (h : t.token.type.kind = .interpolatedString) : ∃ x k, t.token.type = .interpolated x k ∧ section? (.tok t) = some k := by
  cases e : t.token.type <;> rw [e] at h <;> first | (cases h; done) | exact ⟨_, _, rfl, by simp [section?, e]⟩

/-- The tokens of a tree do not close braces that they do not open. -/
theorem above_tree (n : Node) : Fit c true n → Typed R₀ n → AnnotationsFit n → Above n.flat := by
  induction n using Node.induct3 with
  | ht t =>
    rintro (⟨q, h, hq⟩ | ⟨j, ys, e, -⟩) _ _
    · cases q with
      | tok x => rw [Conforms] at h; exact above_free (neutral_of h (hq rfl))
      | _ => simp [Conforms] at h
    · cases e
  | hn k cs ih1 ih2 ih3 =>
    intro hfit hty hann
    obtain ⟨hann, hanns⟩ := (Node.every_node _ _ _).1 hann
    have ht : ∀ c ∈ cs, Typed R₀ c := hty.cases.1
    have tc : ∀ {n : Node}, Typed R₀ n → ∀ d ∈ n.children, Typed R₀ d := by
      intro n h d hd
      cases n with
      | tok t => cases hd
      | node k cs => exact h.cases.1 d hd
    cases hk : k.loud with
    | false =>
      obtain ⟨L, h1, h2, -⟩ := flat_pieces hty hann
      rw [h1]
      refine above_flatten fun l hl => ?_
      have hch := hfit.child fun _ => hk
      rcases h2 l hl with rfl | ⟨o, e, hs, hl⟩ | ⟨x, hx, rfl⟩
      · exact above_nil
      · have hs' := hch _ hs
        have ho := (hs'.child (fun _ => rfl)) (.tok o) (by simp)
        have he := (hs'.child (fun _ => rfl)) (.tok e) (by simp)
        have h3 : Above (Node.tok o).flat := ih2 _ hs _ (by simp [Node.spanOf]) ho (tc (ht _ hs) _ (by simp [Node.spanOf])) trivial
        have h4 : Above (Node.tok e).flat := ih2 _ hs _ (by simp [Node.spanOf]) he (tc (ht _ hs) _ (by simp [Node.spanOf])) trivial
        rcases hl with rfl | rfl
        · exact h3
        · exact h4
      · refine hx.reach (P := fun y => Fit c true y → Typed R₀ y → AnnotationsFit y → Above y.flat) ih1 ih2 ih3 ?_
          (hx.reach ht (fun c hc => tc (ht c hc)) fun c hc d hd => tc (tc (ht c hc) d hd))
          (hx.reach (P := AnnotationsFit) hanns (fun c hc => Node.Every.children (hanns c hc)) fun c hc d hd => Node.Every.children (Node.Every.children (hanns c hc) d hd))
        cases hx with
        | child h => exact hch _ h
        | item h hx => exact (hch _ h).child (fun _ => rfl) _ hx
        | pair h hp hj hx =>
          refine ((hch _ h).child (fun _ => rfl) _ hp).child (fun _ => ?_) _ hx
          rcases hj with rfl | rfl <;> rfl
    | true =>
      have hc := loud_cat hfit hk
      have quietly : ∀ x ∈ cs, ∀ q : Part, Conforms c q x → q.quiet = true → Above x.flat := fun x hx q h hq =>
        ih1 x hx (.inl ⟨q, h, fun _ => hq⟩) (ht x hx) (hanns x hx)
      cases k <;> simp only [Kind.loud, Bool.false_eq_true] at hk
      case tableCtor =>
        cases hty.view with
        | plain hl => cases hl
        | wrap hk o e x =>
          rw [flat_wrap hk]
          obtain ⟨h1, h2, -⟩ := hc.1
          obtain ⟨ho, he⟩ := conf_braces h1
          exact above_braces ho he (quietly x (by simp) _ h2 rfl)
        | wrapSecond hk => cases hk
      case tyTable =>
        cases hty.view with
        | plain hl => cases hl
        | wrap hk o e x =>
          rw [flat_wrap hk]
          obtain ⟨h1, h2, -⟩ := hc.1
          obtain ⟨ho, he⟩ := conf_braces h1
          exact above_braces ho he (quietly x (by simp) _ h2 rfl)
        | wrapSecond hk => cases hk
      case tyArray =>
        cases hty.view with
        | plain hl => cases hl
        | wrap hk => cases hk
        | wrapSecond hk => cases hk
        | tyArray o e a x =>
          rw [flat_tyArray]
          obtain ⟨h1, h2, h3, -⟩ := hc.1
          obtain ⟨ho, he⟩ := conf_braces h1
          rw [← List.append_assoc]
          exact above_braces ho he ((quietly a (by simp) _ h2 rfl).append (quietly x (by simp) _ h3 rfl))
      case interpSegment =>
        rcases hfit with ⟨q, h, hq⟩ | ⟨j, ys, e, hj, -⟩
        · cases q with
          | cat b => rw [Conforms] at h; obtain ⟨h, -⟩ := h; cases h; cases hq rfl
          | type => rw [Conforms] at h; obtain ⟨h, -⟩ := h; cases h
          | tok => simp [Conforms] at h
          | _ => simp only [Conforms] at h
        · cases e
          rcases hj with h | h <;> cases h
      case interpString =>
        obtain ⟨hp, hconn⟩ := hc
        match cs, hp, hconn with
        | [segs, last], hp, hconn =>
          obtain ⟨h1, h2, -⟩ := hp
          cases last with
          | node => simp [Conforms] at h2
          | tok t =>
          cases segs with
          | tok => simp [Conforms] at h1
          | node j segs =>
          have hj : j = .vec := by cases j <;> first | rfl | simp [Conforms] at h1
          subst hj
          rw [Conforms] at h1
          have h2 : t.token.type.kind = .interpolatedString := h2
          obtain ⟨y, k, hy, hsec⟩ := section_of h2
          have flat : (Node.node .interpString [.node .vec segs, .tok t]).flat = (segs.map Node.flat).flatten ++ [t] := by
            rw [Node.flat_plain rfl]
            simp [List.flatMap_def]
          have seg : ∀ s ∈ segs, ∃ o e x k, s = .node .interpSegment [.tok o, e] ∧ o.token.type = .interpolated x k ∧ section? s = some k ∧ Above e.flat := by
            intro s hs
            have hcs := conformsEach_child h1 s hs
            cases s with
            | tok => simp [Conforms] at hcs
            | node i es =>
              rw [Conforms] at hcs
              obtain ⟨hi, -, hes, -⟩ := hcs
              have : i = .interpSegment := by cases i <;> first | rfl | cases hi
              subst this
              match es, hes with
              | [.tok o, e], hes =>
                obtain ⟨g1, g2, -⟩ := hes
                have g1 : o.token.type.kind = .interpolatedString := g1
                obtain ⟨x, k, hx, hs'⟩ := section_of g1
                refine ⟨o, e, x, k, rfl, hx, by simp [section?, hx], ?_⟩
                refine ih3 _ (.head _) _ hs e (by simp) (.inl ⟨_, g2, fun _ => rfl⟩) (tc (tc (ht _ (.head _)) _ hs) _ (by simp)) ?_
                exact Node.Every.children (Node.Every.children (hanns _ (.head _)) _ hs) _ (by simp)
              | [.node _ _, e], hes => simp [production, ConformsAll, Conforms] at hes
              | [], hes => simp [production, ConformsAll] at hes
              | [_], hes => simp [production, ConformsAll] at hes
              | _ :: _ :: _ :: _, hes => simp [production, ConformsAll] at hes
          rw [flat]
          cases segs with
          | nil =>
            have : k = .simple := by
              have := hsec.symm.trans hconn
              cases this; rfl
            subst this
            exact above_free (fun bs => by rw [hy]; rfl)
          | cons s ss =>
            obtain ⟨c1, c2, c3⟩ : section? s = some .begin ∧ (∀ x ∈ ss, section? x ≠ some .end_) ∧ section? (.tok t) = some .end_ := hconn
            rw [hsec] at c3
            cases c3
            obtain ⟨o, e, x, k, rfl, hx, hs', he⟩ := seg _ (.head _)
            rw [c1] at hs'
            cases hs'
            have hrest : InString (ss.map Node.flat).flatten := by
              refine inString_flatten fun l hl => ?_
              obtain ⟨s, hs, rfl⟩ := List.mem_map.1 hl
              obtain ⟨o, e, x, k, rfl, hx, hs', he⟩ := seg s (.tail _ hs)
              have hne : k ≠ .end_ := fun h => c2 _ hs (h ▸ hs')
              have : (Node.node .interpSegment [.tok o, e]).flat = [o] ++ e.flat := by
                rw [Node.flat_plain rfl]; simp
              rw [this]
              exact (inString_section hx hne).append he.inString
            have : ((Node.node .interpSegment [.tok o, e] :: ss).map Node.flat).flatten ++ [t] = o :: ((e.flat ++ (ss.map Node.flat).flatten) ++ [t]) := by
              rw [List.map_cons, Node.flat_plain rfl]; simp
            rw [this]
            exact above_string hx hy (he.inString.append hrest)
        | [], hp, _ => simp [production, ConformsAll] at hp
        | [_], hp, _ => simp [production, ConformsAll] at hp
        | _ :: _ :: _ :: _, hp, _ => simp [production, ConformsAll] at hp

end FM

import Verif.Spec.Ranges
import Verif.Proofs.Ast.Ends

/-! Helper lemmas: where nodes start and end. -/

namespace FM
open Spec

variable {R₀ : TokRef → Prop}

/-- The declaration order and the print order of the fields start alike. -/
theorem head_flat {k : Kind} {cs : List Node} (hty : Typed R₀ (.node k cs)) :
    (cs.flatMap Node.flat).head? = (Node.node k cs).flat.head? := by
  cases hty.view with
  | plain hl => rw [Node.flat_plain hl]
  | wrap hk o c x => rw [flat_wrap hk]; simp
  | wrapSecond hk b o c x => rw [flat_wrapSecond hk]; simp
  | fieldExprKey o c x e v => rw [flat_fieldExprKey]; simp
  | tyArray o c a x => rw [flat_tyArray]; simp
  | tyCallback g o c x a r => rw [flat_tyCallback]; simp
  | typeInst o p i j x => rw [flat_typeInst]; simp
  | numericFor f i e s c t c' p d b n ty =>
    obtain ⟨a, h⟩ := hty
    have : ∃ u, f = .tok u := by
      cases a with
      | cat a =>
        obtain ⟨k, cs, hk, hs, h⟩ := hasTy_cat.1 h
        cases h
        obtain ⟨_, _, h, _, e⟩ := hasTys_cons.1 hs
        cases e
        cases f with
        | tok u => exact ⟨u, rfl⟩
        | node k cs => simp at h
      | _ => simp [HasTy] at h
    obtain ⟨u, rfl⟩ := this
    rw [flat_numericFor]; simp
  | genericFor f ps i e d b n ts hp ht => rw [flat_genericFor]; simp
  | funcBody g o c ps ts r b n hp ht => rw [flat_funcBody]; simp [List.head?_append]
  | localAssignment l ts ps as e x hp ht ha => rw [flat_localAssignment]; simp

/-- The first token is the same in declaration order and in print order. -/
theorem head_tokens (n : Node) : Typed R₀ n → n.tokens.head? = n.flat.head? := by
  induction n using Node.induct with
  | ht u => intros; rfl
  | hn k cs ih =>
    intro hty
    rw [← head_flat hty, Node.tokens_node]
    exact head?_flatMap_congr fun c hc => ih c hc (hty.cases.1 c hc)

theorem flatMap_nil {k : Kind} {cs : List Node} (hty : Typed R₀ (.node k cs)) :
    (Node.node k cs).flat = [] ↔ ∀ c ∈ cs, c.flat = [] := by
  rw [← List.head?_eq_none_iff, ← head_flat hty, List.head?_eq_none_iff, List.flatMap_eq_nil_iff]

theorem lastStop_none : ∀ {es : List Ends}, (∀ e ∈ es, e.stop = none) → Ends.lastStop es = none
  | [], _ => rfl
  | e :: es, h => by
    rw [Ends.lastStop, lastStop_none fun d hd => h d (by simp [hd]), h e (by simp)]; rfl

theorem lastStop_some : ∀ {es : List Ends}, (∃ e ∈ es, e.stop ≠ none) → Ends.lastStop es ≠ none
  | [], h => by simp at h
  | e :: es, h => by
    rw [Ends.lastStop]
    cases hl : Ends.lastStop es with
    | some p => simp
    | none =>
      obtain ⟨d, hd, h⟩ := h
      rcases List.mem_cons.1 hd with rfl | hd
      · simpa using h
      · exact absurd hl (lastStop_some ⟨d, hd, h⟩)

theorem lastStop_append : ∀ {es fs : List Ends} {p : Position}, Ends.lastStop fs = some p → Ends.lastStop (es ++ fs) = some p
  | [], _, _, h => h
  | e :: es, fs, p, h => by rw [List.cons_append, Ends.lastStop, lastStop_append h]; rfl

theorem lastStop_mem : ∀ {es : List Ends} {p : Position}, Ends.lastStop es = some p → ∃ e ∈ es, e.stop = some p
  | [], _, h => by simp [Ends.lastStop] at h
  | e :: es, p, h => by
    rw [Ends.lastStop] at h
    cases hl : Ends.lastStop es with
    | some q =>
      rw [hl] at h
      obtain ⟨d, hd, h'⟩ := lastStop_mem hl
      refine ⟨d, by simp [hd], ?_⟩
      rw [h', ← h]; rfl
    | none => rw [hl] at h; exact ⟨e, by simp, h⟩

theorem firstStart_heads : ∀ {cs : List Node}, (∀ c ∈ cs, c.ends.start = c.flat.head?.map (·.token.start)) →
    Ends.firstStart (cs.map Node.ends) = (cs.flatMap Node.flat).head?.map (·.token.start)
  | [], _ => rfl
  | c :: cs, h => by
    have ih := firstStart_heads (cs := cs) fun d hd => h d (List.mem_cons_of_mem _ hd)
    simp only [List.map_cons, Ends.firstStart, h c List.mem_cons_self, ih, List.flatMap_cons, List.head?_append]
    cases c.flat.head? <;> simp

theorem nth_mem : ∀ {es : List Ends} {i : Nat} {p : Position}, (Ends.nth es i).stop = some p → ∃ e ∈ es, e.stop = some p
  | [], _, _, h => by simp [Ends.nth] at h
  | e :: es, 0, _, h => ⟨e, by simp, h⟩
  | e :: es, i + 1, _, h => by
    obtain ⟨d, hd, h'⟩ := nth_mem (es := es) (i := i) h
    exact ⟨d, by simp [hd], h'⟩

theorem both_stop {e : Ends} {p : Position} (h : e.both.stop = some p) : e.stop = some p := by
  unfold Ends.both at h
  split at h <;> simp_all

theorem Kind.ends_mem {k : Kind} {es : List Ends} {p : Position} (h : (k.ends es).stop = some p) : ∃ e ∈ es, e.stop = some p := by
  have hor : ∀ {a b : Option Position}, a.or b = some p → a = some p ∨ b = some p := by
    intro a b h; cases a <;> simp_all
  have hmax : ∀ {a b : Option Position}, Ends.maxStop a b = some p → a = some p ∨ b = some p := by
    intro a b h
    cases a <;> cases b <;> simp [Ends.maxStop] at h ⊢ <;> try exact h
    split at h
    · exact .inr h
    · exact .inl h
  have hlist : es.getLast?.bind Ends.stop = some p → ∃ e ∈ es, e.stop = some p := by
    intro h
    cases hl : es.getLast? with
    | none => rw [hl] at h; cases h
    | some e => rw [hl] at h; exact ⟨e, List.mem_of_getLast? hl, h⟩
  unfold Kind.ends at h
  split at h
  · cases h
  · exact nth_mem h
  · exact hlist h
  · exact hlist h
  · rcases hmax h with h | h <;> exact nth_mem h
  · exact nth_mem h
  · rcases hor h with h | h <;> exact nth_mem h
  · exact nth_mem h
  · split at h
    · exact nth_mem (both_stop h)
    · exact lastStop_mem (both_stop h)

/-- The end of a node is the end of one of its tokens. -/
theorem stop_mem (n : Node) : ∀ p, n.ends.stop = some p → ∃ t ∈ n.tokens, t.token.stop = p := by
  induction n using Node.induct with
  | ht u => intro p h; exact ⟨u, by simp, Option.some.inj h⟩
  | hn k cs ih =>
    intro p h
    rw [Node.ends, endss_eq] at h
    obtain ⟨e, he, h⟩ := Kind.ends_mem h
    obtain ⟨c, hc, rfl⟩ := List.mem_map.1 he
    obtain ⟨t, ht, h⟩ := ih c hc p h
    refine ⟨t, ?_, h⟩
    rw [Node.tokens_node]
    exact List.mem_flatMap.2 ⟨c, hc, ht⟩

/-- A node without tokens has no end. -/
theorem stop_empty (n : Node) (hty : Typed R₀ n) (hfit : AnnotationsFit n) (h : n.flat = []) : n.ends.stop = none := by
  cases hs : n.ends.stop with
  | none => rfl
  | some p =>
    obtain ⟨t, ht, _⟩ := stop_mem n p hs
    have := count_tokens t n hty hfit
    rw [h, List.count_nil] at this
    exact absurd (List.count_pos_iff.2 ht) (by omega)

/-- The start of the node is that of its first token, and it has an end. -/
def StartsAt (n : Node) : Prop := n.ends.start = n.flat.head?.map (·.token.start) ∧ (n.flat ≠ [] → n.ends.stop ≠ none)

theorem Covers.startsAt {n : Node} (h : Covers n) : StartsAt n := by
  rw [Covers] at h
  rw [StartsAt, h]
  refine ⟨rfl, fun hne => ?_⟩
  simpa using hne

theorem startsAt_derived {k : Kind} {cs : List Node} (hty : Typed R₀ (.node k cs)) (hk : k.isContainer = false)
    (hf : k.fullRange = none) (h1 : Ends.firstStart (cs.map Node.ends) = (cs.flatMap Node.flat).head?.map (·.token.start))
    (h2 : (Node.node k cs).flat ≠ [] → ∃ c ∈ cs, c.ends.stop ≠ none) : StartsAt (.node k cs) := by
  rw [StartsAt, Node.ends, Kind.ends_derived hk hf, endss_eq, h1, head_flat hty]
  cases hfl : (Node.node k cs).flat with
  | nil => simp [Ends.both]
  | cons t l =>
    obtain ⟨c, hc, hs⟩ := h2 (by simp [hfl])
    obtain ⟨p, hp⟩ : ∃ p, Ends.lastStop (cs.map Node.ends) = some p :=
      Option.ne_none_iff_exists'.1 (lastStop_some ⟨c.ends, List.mem_map.2 ⟨c, hc, rfl⟩, hs⟩)
    simp [Ends.both, hp]

theorem startsAt_list {k : Kind} (hk : k = .vec ∨ k = .punct) {cs : List Node} (h : ∀ c ∈ cs, StartsAt c)
    (hne : ∀ c ∈ cs, c.flat ≠ []) : StartsAt (.node k cs) := by
  have e : k.ends (cs.map Node.ends) = ⟨(cs.map Node.ends).head?.bind Ends.start,
      (cs.map Node.ends).getLast?.bind Ends.stop⟩ := by rcases hk with rfl | rfl <;> rfl
  have hl : k.layout = none := by rcases hk with rfl | rfl <;> rfl
  rw [StartsAt, Node.ends, endss_eq, e, Node.flat_plain hl]
  constructor
  · cases cs with
    | nil => rfl
    | cons c cs =>
      obtain ⟨t, l, e⟩ := List.exists_cons_of_ne_nil (hne c List.mem_cons_self)
      simp [(h c List.mem_cons_self).1, e]
  · intro hcs
    have hcs : cs ≠ [] := by rintro rfl; simp at hcs
    obtain ⟨init, c, rfl⟩ : ∃ init t, cs = init ++ [t] := ⟨_, _, (List.dropLast_concat_getLast hcs).symm⟩
    simpa using (h c (by simp)).2 (hne c (by simp))

/-- The elements of lists other than lists of annotations have tokens. -/
theorem Listed.nonempty {a : Ty} (ha : ∀ b, a ≠ .opt b) {k : Kind} (hk : k = .vec ∨ k = .punct) {cs : List Node} (h : listed k cs)
    (hc : ∀ c ∈ cs, HasTy R₀ a c) : ∀ c ∈ cs, c.flat ≠ [] := by
  rcases h.1 (by rcases hk with rfl | rfl <;> simp) with h | h
  · exact h
  · intro c hm
    obtain ⟨ds, h⟩ := h c hm
    have := not_option ha (hc c hm) (ds := ds)
    rcases h with h | h
    · exact absurd h this.1
    · exact absurd h this.2

theorem starts (n : Node) : ∀ a : Ty, a.regular = true → HasTy R₀ a n → Listed n → StartsAt n := by
  induction n using Node.induct with
  | ht t => intros; exact ⟨rfl, by simp [Node.ends]⟩
  | hn k cs ih =>
    intro a ha hty hst
    obtain ⟨hl, hls⟩ := (Node.every_node _ _ _).1 hst
    have htyped : Typed R₀ (.node k cs) := ⟨a, hty⟩
    cases a with
    | tok => simp at hty
    | span =>
      obtain ⟨o, c, _, _, h⟩ := hasTy_span.1 hty
      cases h
      rw [← Node.spanOf, StartsAt, flat_span]
      exact ⟨rfl, fun _ => by simp [Node.spanOf, Node.ends, Node.endss, Kind.ends, Ends.nth]⟩
    | opt a =>
      rcases hasTy_opt.1 hty with h | ⟨c, hc, h⟩
      · cases h; exact ⟨rfl, by simp [Node.flat_plain (show Kind.absent.layout = none from rfl)]⟩
      · cases h
        have := ih c (by simp) a ha hc (hls c (by simp))
        rw [StartsAt] at this ⊢
        simpa [Node.ends, Kind.ends, Node.endss, Ends.nth, Node.flat_plain (show Kind.present.layout = none from rfl)] using this
    | vec a =>
      obtain ⟨cs, hc, h⟩ := hasTy_vec.1 hty
      cases h
      have hopt : ∀ b, a ≠ .opt b := by rintro b rfl; simp [Ty.regular] at ha
      have hreg : a.regular = true := by cases a <;> simp_all [Ty.regular]
      exact startsAt_list (.inl rfl) (fun c hm => ih c hm a hreg (hc c hm) (hls c hm)) (Listed.nonempty hopt (.inl rfl) hl hc)
    | punct a =>
      obtain ⟨cs, hc, h⟩ := hasTy_punct.1 hty
      cases h
      exact startsAt_list (.inr rfl) (fun c hm => ih c hm (.pair a) ha (hc c hm) (hls c hm))
        (Listed.nonempty (a := .pair a) (by simp) (.inr rfl) hl hc)
    | pair a =>
      rcases hasTy_pair.1 hty with ⟨c, hc, h⟩ | ⟨c, t, hc, _, h⟩
      · cases h
        have := ih c (by simp) a ha hc (hls c (by simp))
        rw [StartsAt] at this ⊢
        simpa [Node.ends, Kind.ends, Node.endss, Ends.nth, Node.flat_plain (show Kind.pairEnd.layout = none from rfl)] using this
      · cases h
        have := ih c (by simp) a ha hc (hls c (by simp))
        rw [StartsAt] at this ⊢
        have hne : c.flat ≠ [] := by
          rcases hl.1 (.inr (.inr rfl)) with h | h
          · exact h c (by simp)
          · obtain ⟨ds, h⟩ := h (.tok t) (by simp)
            simp at h
        obtain ⟨u, l, e⟩ := List.exists_cons_of_ne_nil hne
        simp [Node.ends, Kind.ends, Node.endss, Ends.nth, this.1, e, Node.flat_plain (show Kind.pairPunct.layout = none from rfl)]
    | tup a b =>
      obtain ⟨x, y, hx, hy, h⟩ := hasTy_tup.1 hty
      cases h
      simp [Ty.regular] at ha
      have hx := ih x (by simp) a ha.1 hx (hls x (by simp))
      have hy := ih y (by simp) b ha.2 hy (hls y (by simp))
      have ho := hl.2 rfl
      rw [StartsAt] at hx hy ⊢
      rw [Node.flat_plain rfl]
      simp only [Node.ends, Kind.ends, Node.endss, Ends.nth, List.flatMap_cons, List.flatMap_nil, List.append_nil, hx.1, hy.1] at ho ⊢
      refine ⟨?_, fun hne => ?_⟩
      · cases ex : x.flat with
        | nil => cases y.flat <;> simp [Ends.minStart]
        | cons t l =>
          cases ey : y.flat with
          | nil => simp [Ends.minStart]
          | cons u l' =>
            rw [ex, ey] at ho
            have h1 : t.token.start.bytes ≤ u.token.start.bytes := by
              rw [Ordered] at ho
              exact ((List.pairwise_append.1 ho).2.2 t (by simp) u (by simp)).1
            simp [Ends.minStart, Nat.not_lt.2 h1]
      · have : x.ends.stop ≠ none ∨ y.ends.stop ≠ none := by
          by_cases h : x.flat = []
          · rw [h, List.nil_append] at hne
            exact .inr (hy.2 hne)
          · exact .inl (hx.2 h)
        cases h1 : x.ends.stop <;> cases h2 : y.ends.stop <;> simp [h1, h2, Ends.maxStop] at this ⊢
    | cat c =>
      obtain ⟨k, cs, hk, hs, h⟩ := hasTy_cat.1 hty
      cases h
      have hcont : k.isContainer = false := by cases k <;> simp_all [Kind.cat, Kind.isContainer]
      by_cases hf : k.fullRange ≠ none
      · exact (covers_full htyped hcont hf).startsAt
      have hf : k.fullRange = none := Decidable.not_not.1 hf
      by_cases hreg : k ≠ .genericFor ∧ k ≠ .funcBody ∧ k ≠ .localAssignment
      · have h : ∀ c ∈ cs, StartsAt c := fun c hc => by
          obtain ⟨a, ha, h⟩ := hs.mem c hc
          exact ih c hc a (k.sig_regular hreg a ha) h (hls c hc)
        refine startsAt_derived htyped hcont hf (firstStart_heads fun c hc => (h c hc).1) fun hne => ?_
        apply Classical.byContradiction
        intro hno
        refine hne ((flatMap_nil htyped).2 fun c hc => ?_)
        apply Classical.byContradiction
        intro hcn
        exact hno ⟨c, hc, (h c hc).2 hcn⟩
      · have hview := htyped.view
        have hk3 : k = .genericFor ∨ k = .funcBody ∨ k = .localAssignment := by
          by_cases h1 : k = .genericFor
          · exact .inl h1
          by_cases h2 : k = .funcBody
          · exact .inr (.inl h2)
          exact .inr (.inr (Classical.byContradiction fun h3 => hreg ⟨h1, h2, h3⟩))
        have et : ∀ t : TokRef, (Node.tok t).ends = ⟨some t.token.start, some t.token.stop⟩ := fun _ => rfl
        rcases hk3 with rfl | rfl | rfl
        · cases hview with
          | genericFor f ps i e d b n ts hp ht =>
            exact startsAt_derived htyped hcont hf (by simp [Ends.firstStart, et]) fun _ => ⟨.tok f, by simp, by simp [et]⟩
          | plain hl => simp [Kind.layout] at hl
          | wrap hk => simp [Kind.wraps] at hk
          | wrapSecond hk => simp [Kind.wrapsSecond] at hk
        · cases hview with
          | funcBody g o c ps ts r b n hp ht =>
            have hg : StartsAt g := ih g (by simp) (.opt (.cat .genericDecl)) rfl (by
              simp only [Kind.sig] at hs
              obtain ⟨_, _, h, _, e⟩ := hasTys_cons.1 hs
              cases e; exact h) (hls g (by simp))
            have e1 : (Node.spanOf (.tok o) (.tok c)).ends = ⟨some o.token.start, some c.token.stop⟩ := rfl
            refine startsAt_derived htyped hcont hf ?_ fun _ => ⟨.tok n, by simp, by simp [et]⟩
            simp only [List.map_cons, Ends.firstStart, hg.1, e1]
            cases hgf : g.flat <;> simp [hgf]
          | plain hl => simp [Kind.layout] at hl
          | wrap hk => simp [Kind.wraps] at hk
          | wrapSecond hk => simp [Kind.wrapsSecond] at hk
        · cases hview with
          | localAssignment l ts ps as e x hp ht ha =>
            exact startsAt_derived htyped hcont hf (by simp [Ends.firstStart, et]) fun _ => ⟨.tok l, by simp, by simp [et]⟩
          | plain hl => simp [Kind.layout] at hl
          | wrap hk => simp [Kind.wraps] at hk
          | wrapSecond hk => simp [Kind.wrapsSecond] at hk

/-! ## Ends -/

theorem bracketed_full {k : Kind} (h : bracketed k) : k.isContainer = false ∧ k.fullRange ≠ none := by
  rcases h with rfl | rfl | rfl | rfl | rfl <;> simp [Kind.isContainer, Kind.fullRange]

theorem getLast?_end {cs pre post : List Node} {x : Node} (h : cs = pre ++ x :: post) (hne : x.flat ≠ [])
    (he : ∀ n ∈ post, n.flat = []) : (cs.flatMap Node.flat).getLast? = x.flat.getLast? := by
  subst h
  rw [List.flatMap_append, List.flatMap_cons, flatMap_empty he, List.append_nil, List.getLast?_append]
  obtain ⟨init, t, e⟩ : ∃ init t, x.flat = init ++ [t] := ⟨_, _, (List.dropLast_concat_getLast hne).symm⟩
  simp [e]

/-- The last part of a straight node is not a list of annotations. -/
theorem last_regular {k : Kind} {cs pre post : List Node} {x : Node} (hty : Typed R₀ (.node k cs)) (hs : HasTys R₀ k.sig cs)
    (hst : straight k cs) (h : cs = pre ++ x :: post) (hne : x.flat ≠ []) (he : ∀ n ∈ post, n.flat = []) :
    ∃ a, a.regular = true ∧ HasTy R₀ a x := by
  have hx : x ∈ cs := by rw [h]; simp
  obtain ⟨a, ha, hxa⟩ := hs.mem x hx
  by_cases hr : a.regular = true
  · exact ⟨a, hr, hxa⟩
  exfalso
  have vec : ∃ ts, x = .node .vec ts := by
    by_cases hreg : k ≠ .genericFor ∧ k ≠ .funcBody ∧ k ≠ .localAssignment
    · exact absurd (k.sig_regular hreg a ha) hr
    · have : ∃ b, a = .vec b := by
        cases k <;> simp at hreg <;> simp only [Kind.sig, List.mem_cons, List.not_mem_nil, or_false] at ha <;>
          rcases ha with rfl | rfl | rfl | rfl | rfl | rfl | rfl | rfl <;> first | exact ⟨_, rfl⟩ | simp [Ty.regular] at hr
      obtain ⟨b, rfl⟩ := this
      obtain ⟨ts, _, h⟩ := hasTy_vec.1 hxa
      exact ⟨ts, h⟩
  obtain ⟨ts, rfl⟩ := vec
  have htok : (∃ u, Node.tok u ∈ post) → False := by
    rintro ⟨u, hu⟩
    have := he _ hu
    simp at this
  have nopt : ∀ {b : Ty}, HasTy R₀ (.opt b) (.node .vec ts) → False := by intro b h; simp [HasTy] at h
  have ncat : ∀ {b : Cat}, HasTy R₀ (.cat b) (.node .vec ts) → False := by intro b h; simp [HasTy, Kind.cat] at h
  have hk3 : k = .genericFor ∨ k = .funcBody ∨ k = .localAssignment := by
    apply Classical.byContradiction
    intro hno
    refine hr (k.sig_regular ⟨?_, ?_, ?_⟩ a ha) <;> rintro rfl <;> simp at hno
  have hview := hty.view
  rcases hk3 with rfl | rfl | rfl
  · cases hview with
    | genericFor f ps i e d b n us hp ht =>
      have hst : ∀ t ∈ us, t.flat = [] := hst
      simp only [Kind.sig] at hs
      obtain ⟨_, _, _, hs, e1⟩ := hasTys_cons.1 hs; cases e1
      obtain ⟨_, _, _, hs, e1⟩ := hasTys_cons.1 hs; cases e1
      obtain ⟨_, _, hi, hs, e1⟩ := hasTys_cons.1 hs; cases e1
      obtain ⟨_, _, h4, hs, e1⟩ := hasTys_cons.1 hs; cases e1
      obtain ⟨_, _, h5, hs, e1⟩ := hasTys_cons.1 hs; cases e1
      obtain ⟨_, _, h6, hs, e1⟩ := hasTys_cons.1 hs; cases e1
      simp only [List.mem_cons, List.not_mem_nil, or_false] at hx
      rcases hx with hx | hx | rfl | rfl | rfl | rfl | hx | hx
      · cases hx
      · cases hx
      · simp at hi
      · simp [HasTy] at h4
      · simp at h5
      · exact ncat h6
      · cases hx
      · cases hx
        exact hne (by rw [flat_vec, flatMap_empty hst])
    | plain hl => simp [Kind.layout] at hl
    | wrap hk => simp [Kind.wraps] at hk
    | wrapSecond hk => simp [Kind.wrapsSecond] at hk
  · cases hview with
    | funcBody g o c ps us r b n hp ht =>
      have : ∃ post', post = post' ++ [.tok n] ∨ pre ++ .node .vec ts :: post = pre ++ [.tok n] := by
        rcases List.eq_nil_or_concat post with rfl | ⟨post', y, rfl⟩
        · have := congrArg List.getLast? h
          simp at this
        · have := congrArg List.getLast? h
          rw [List.concat_eq_append, ← List.cons_append, ← List.append_assoc] at this
          rw [List.getLast?_append] at this
          have : some (Node.tok n) = some y := this
          cases this
          exact ⟨post', .inl (by simp)⟩
      obtain ⟨post', rfl | h'⟩ := this
      · exact htok ⟨n, by simp⟩
      · simp at h'
    | plain hl => simp [Kind.layout] at hl
    | wrap hk => simp [Kind.wraps] at hk
    | wrapSecond hk => simp [Kind.wrapsSecond] at hk
  · cases hview with
    | localAssignment l us ps as e x hp ht ha' =>
      simp only [Kind.sig] at hs
      obtain ⟨_, _, _, hs, e1⟩ := hasTys_cons.1 hs; cases e1
      obtain ⟨_, _, _, hs, e1⟩ := hasTys_cons.1 hs; cases e1
      obtain ⟨_, _, _, hs, e1⟩ := hasTys_cons.1 hs; cases e1
      obtain ⟨_, _, _, hs, e1⟩ := hasTys_cons.1 hs; cases e1
      obtain ⟨_, _, h5, hs, e1⟩ := hasTys_cons.1 hs; cases e1
      obtain ⟨_, _, h6, hs, e1⟩ := hasTys_cons.1 hs; cases e1
      have key : e ∈ post → x ∈ post → (.node .vec ts = Node.node .vec us ∨ .node .vec ts = Node.node .vec as) → False := by
        intro h1 h2 h3
        have : (∀ t ∈ us, t.flat = []) ∧ ∀ t ∈ as, t.flat = [] := by
          rcases hst with h | h | h
          · exact absurd (he _ h1) h
          · exact absurd (he _ h2) h
          · exact h
        rcases h3 with h3 | h3 <;> cases h3
        · exact hne (by rw [flat_vec, flatMap_empty this.1])
        · exact hne (by rw [flat_vec, flatMap_empty this.2])
      rcases pre with _ | ⟨p1, _ | ⟨p2, _ | ⟨p3, _ | ⟨p4, _ | ⟨p5, _ | ⟨p6, p⟩⟩⟩⟩⟩⟩
      · simp at h
      · simp at h
        obtain ⟨-, h1, h⟩ := h
        exact key (by simp [← h]) (by simp [← h]) (.inl (by rw [h1]))
      · simp at h
      · simp at h
        obtain ⟨-, -, -, h1, h⟩ := h
        exact key (by simp [← h]) (by simp [← h]) (.inr (by rw [h1]))
      · simp at h
        obtain ⟨-, -, -, -, rfl, h⟩ := h
        exact nopt h5
      · simp at h
        obtain ⟨-, -, -, -, -, rfl, h⟩ := h
        simp [HasTy] at h6
      · simp at h
    | plain hl => simp [Kind.layout] at hl
    | wrap hk => simp [Kind.wraps] at hk
    | wrapSecond hk => simp [Kind.wrapsSecond] at hk

/-- A node that closes ends with its last token. -/
theorem ends_at {n : Node} (hcl : Closes n) : ∀ a : Ty, a.regular = true → HasTy R₀ a n → Listed n → AnnotationsFit n →
    n.ends.stop = n.flat.getLast?.map (·.token.stop) := by
  induction hcl with
  | tok t => intros; rfl
  | @empty n h => intro a _ hty _ hfit; rw [h, stop_empty n ⟨a, hty⟩ hfit h]; rfl
  | @brackets k h cs =>
    intro a _ hty _ _
    have := covers_full (R₀ := R₀) ⟨a, hty⟩ (bracketed_full h).1 (bracketed_full h).2
    rw [Covers] at this
    rw [this]
  | @last k pre post x hst hne he _ ih =>
    intro a ha hty hl hfit
    have htyped : Typed R₀ (.node k (pre ++ x :: post)) := ⟨a, hty⟩
    have hlast := getLast?_end rfl hne he (pre := pre)
    have hstr := (straight_ends htyped hst).2
    have hn := starts _ a ha hty hl
    obtain ⟨hl, hls⟩ := (Node.every_node _ _ _).1 hl
    obtain ⟨-, hfits⟩ := (Node.every_node _ _ _).1 hfit
    have hpost : ∀ n ∈ post, n.ends.stop = none := fun n h =>
      stop_empty n (htyped.cases.1 n (by simp [h])) (hfits n (by simp [h])) (he n h)
    have ih : ∀ b : Ty, b.regular = true → HasTy R₀ b x → x.ends.stop = x.flat.getLast?.map (·.token.stop) :=
      fun b hb hx => ih b hb hx (hls x (by simp)) (hfits x (by simp))
    generalize hcs : pre ++ x :: post = cs at *
    cases a with
    | tok => simp at hty
    | span =>
      obtain ⟨o, c, _, _, h⟩ := hasTy_span.1 hty
      cases h
      rw [← Node.spanOf, flat_span]
      rfl
    | opt a =>
      rcases hasTy_opt.1 hty with h | ⟨c, hc, h⟩
      · cases h; simp at hcs
      · cases h
        rcases pre with _ | ⟨p1, p⟩
        · simp at hcs
          obtain ⟨rfl, rfl⟩ := hcs
          have := ih a ha hc
          simpa [Node.ends, Kind.ends, Node.endss, Ends.nth, Node.flat_plain (show Kind.present.layout = none from rfl)] using this
        · simp at hcs
    | vec a =>
      obtain ⟨ds, hc, h⟩ := hasTy_vec.1 hty
      cases h
      have hopt : ∀ b, a ≠ .opt b := by rintro b rfl; simp [Ty.regular] at ha
      have hreg : a.regular = true := by cases a <;> simp_all [Ty.regular]
      have hnon := Listed.nonempty hopt (.inl rfl) hl hc
      have : post = [] := by
        cases post with
        | nil => rfl
        | cons y post => exact absurd (he y (by simp)) (hnon y (by simp [← hcs]))
      subst this
      rw [← hstr, hlast, ← ih a hreg (hc x (by simp [← hcs])), Node.ends, endss_eq, ← hcs]
      simp [Kind.ends]
    | punct a =>
      obtain ⟨ds, hc, h⟩ := hasTy_punct.1 hty
      cases h
      have hnon := Listed.nonempty (a := .pair a) (by simp) (.inr rfl) hl hc
      have : post = [] := by
        cases post with
        | nil => rfl
        | cons y post => exact absurd (he y (by simp)) (hnon y (by simp [← hcs]))
      subst this
      rw [← hstr, hlast, ← ih (.pair a) ha (hc x (by simp [← hcs])), Node.ends, endss_eq, ← hcs]
      simp [Kind.ends]
    | pair a =>
      rcases hasTy_pair.1 hty with ⟨c, hc, h⟩ | ⟨c, t, hc, _, h⟩
      · cases h
        rcases pre with _ | ⟨p1, p⟩
        · simp at hcs
          obtain ⟨rfl, rfl⟩ := hcs
          have := ih a ha hc
          simpa [Node.ends, Kind.ends, Node.endss, Ends.nth, Node.flat_plain (show Kind.pairEnd.layout = none from rfl)] using this
        · simp at hcs
      · cases h
        simp [Node.ends, Kind.ends, Node.endss, Ends.nth, Node.flat_plain (show Kind.pairPunct.layout = none from rfl)]
    | tup a b =>
      obtain ⟨y, z, hy, hz, h⟩ := hasTy_tup.1 hty
      cases h
      simp [Ty.regular] at ha
      have ho := hl.2 rfl
      rw [← hstr, hlast]
      simp only [Node.ends, Kind.ends, Node.endss, Ends.nth]
      rcases pre with _ | ⟨p1, _ | ⟨p2, p⟩⟩
      · simp at hcs
        obtain ⟨rfl, rfl⟩ := hcs
        rw [hpost z (by simp), ih a ha.1 hy]
        cases x.flat.getLast? <;> rfl
      · simp at hcs
        obtain ⟨rfl, rfl, rfl⟩ := hcs
        rw [ih b ha.2 hz]
        obtain ⟨init, t, e⟩ : ∃ init t, x.flat = init ++ [t] := ⟨_, _, (List.dropLast_concat_getLast hne).symm⟩
        cases hs : p1.ends.stop with
        | none => simp [Ends.maxStop]
        | some p =>
          obtain ⟨u, hu, rfl⟩ := stop_mem p1 p hs
          have hu : u ∈ p1.flat := by
            have := count_tokens u p1 ⟨a, hy⟩ (hfits p1 (by simp))
            exact List.count_pos_iff.1 (by rw [← this]; exact List.count_pos_iff.2 hu)
          have : u.token.stop.bytes ≤ t.token.stop.bytes := by
            rw [Ordered] at ho
            simp only [List.flatMap_cons, List.flatMap_nil, List.append_nil] at ho
            exact ((List.pairwise_append.1 ho).2.2 u hu t (by simp [e])).2
          simp [Ends.maxStop, e, this]
      · simp at hcs
    | cat c =>
      obtain ⟨k, ds, hk, hs, h⟩ := hasTy_cat.1 hty
      cases h
      have hcont : k.isContainer = false := by cases k <;> simp_all [Kind.cat, Kind.isContainer]
      by_cases hf : k.fullRange ≠ none
      · have := covers_full htyped hcont hf
        rw [Covers] at this
        rw [this]
      have hf : k.fullRange = none := Decidable.not_not.1 hf
      obtain ⟨b, hb, hxb⟩ := last_regular htyped hs hst hcs.symm hne he
      have hx := ih b hb hxb
      obtain ⟨init, t, e⟩ : ∃ init t, x.flat = init ++ [t] := ⟨_, _, (List.dropLast_concat_getLast hne).symm⟩
      rw [e] at hx
      simp only [List.getLast?_append, List.getLast?_singleton, Option.some_or, Option.map_some] at hx
      have hls : Ends.lastStop (cs.map Node.ends) = some t.token.stop := by
        rw [← hcs, List.map_append, List.map_cons]
        apply lastStop_append
        rw [Ends.lastStop, lastStop_none, hx]
        · rfl
        · intro d hd
          obtain ⟨n, hn, rfl⟩ := List.mem_map.1 hd
          exact hpost n hn
      have hst1 := hn.1
      have hne2 : (Node.node k cs).flat ≠ [] := by
        intro h
        exact hne ((flatMap_nil htyped).1 h x (by simp [← hcs]))
      have hstop := hn.2 hne2
      rw [← hstr, hlast, e]
      rw [Node.ends, Kind.ends_derived hcont hf, endss_eq, hls] at hstop ⊢
      cases hfs : Ends.firstStart (cs.map Node.ends) with
      | none => rw [hfs] at hstop; simp [Ends.both] at hstop
      | some q => simp [Ends.both]

end FM

import Verif.Proofs.Ast.Tokens

/-!
# First and last tokens, and ranges
-/

namespace FM
open Spec

variable {R₀ : TokRef → Prop}

theorem head?_flatMap_congr {f g : Node → List TokRef} : ∀ {cs : List Node}, (∀ c ∈ cs, (f c).head? = (g c).head?) →
    (cs.flatMap f).head? = (cs.flatMap g).head?
  | [], _ => rfl
  | c :: cs, h => by
    simp [List.head?_append, h c List.mem_cons_self,
      head?_flatMap_congr (cs := cs) fun d hd => h d (List.mem_cons_of_mem _ hd)]

theorem getLast?_flatMap_congr {f g : Node → List TokRef} : ∀ {cs : List Node},
    (∀ c ∈ cs, (f c).getLast? = (g c).getLast?) → (cs.flatMap f).getLast? = (cs.flatMap g).getLast?
  | [], _ => rfl
  | c :: cs, h => by
    simp [List.getLast?_append, h c List.mem_cons_self,
      getLast?_flatMap_congr (cs := cs) fun d hd => h d (List.mem_cons_of_mem _ hd)]

theorem flatNames_empty {a : Ty} : ∀ (ps as bs : List Node), (∀ p ∈ ps, HasTy R₀ (.pair a) p) →
    (∀ n ∈ as, n.flat = []) → (∀ n ∈ bs, n.flat = []) → flatNames ps as bs = ps.flatMap Node.flat
  | [], _, _, _, _, _ => rfl
  | p :: ps, as, bs, hp, ha, hb => by
    have tl : ∀ {l : List Node} {P : Node → Prop}, (∀ a ∈ l, P a) → ∀ a ∈ l.tail, P a :=
      fun h a hm => h a (List.mem_of_mem_tail hm)
    have hd : ∀ {l : List Node}, (∀ a ∈ l, a.flat = []) → part (l.map Node.flat) 0 = [] := by
      intro l hl; cases l with
      | nil => rfl
      | cons a l => exact hl a List.mem_cons_self
    have ih := flatNames_empty ps as.tail bs.tail (fun q hq => hp q (List.mem_cons_of_mem _ hq)) (tl ha) (tl hb)
    simp only [flatNames, flatNames, List.map_tail, List.map_cons, joinNames, if_true, hd ha, hd hb] at ih ⊢
    rw [ih]
    rcases hasTy_pair.1 (hp p List.mem_cons_self) with ⟨x, _, rfl⟩ | ⟨x, t, _, _, rfl⟩
    · simp [part, Node.flat_plain (show Kind.pairEnd.layout = none from rfl)]
    · simp [part, Node.flat_plain (show Kind.pairPunct.layout = none from rfl)]

theorem flatMap_empty {l : List Node} (h : ∀ a ∈ l, a.flat = []) : l.flatMap Node.flat = [] := by
  simpa [List.flatMap_eq_nil_iff] using h

/-- On straight nodes the declaration order and the print order of the fields start and end alike. -/
theorem straight_ends {k : Kind} {cs : List Node} (hty : Typed R₀ (.node k cs)) (hst : straight k cs) :
    (cs.flatMap Node.flat).head? = (Node.node k cs).flat.head? ∧
      (cs.flatMap Node.flat).getLast? = (Node.node k cs).flat.getLast? := by
  cases hty.view with
  | plain hl => rw [Node.flat_plain hl]; exact ⟨rfl, rfl⟩
  | wrap hk o c x =>
    have hx : x.flat = [] := by
      cases k <;> simp only [Kind.wraps, Bool.false_eq_true] at hk <;> exact hst
    rw [flat_wrap hk]; simp [hx]
  | wrapSecond hk b o c x =>
    have hx : x.flat = [] := by
      cases k <;> simp only [Kind.wrapsSecond, Bool.false_eq_true] at hk <;> exact hst
    rw [flat_wrapSecond hk]; simp [hx]
  | fieldExprKey o c x e v => rw [flat_fieldExprKey]; simp [List.getLast?_append, List.getLast?_cons]
  | tyArray o c a x =>
    have : a.flat = [] ∧ x.flat = [] := hst
    rw [flat_tyArray]; simp [this]
  | tyCallback g o c x a r => rw [flat_tyCallback]; simp [List.getLast?_append, List.getLast?_cons]
  | typeInst o p i j x => exact hst.elim
  | numericFor f i e s c t c' p d b n ty =>
    have : ty.flat = [] := hst
    rw [flat_numericFor]; simp [this]
  | genericFor f ps i e d b n ts hp ht =>
    have hst : ∀ t ∈ ts, t.flat = [] := hst
    rw [flat_genericFor, flatNames_empty ps [] ts hp (by simp) hst]
    simp [flat_vec, flat_punct, flatMap_empty hst]
  | funcBody g o c ps ts r b n hp ht =>
    rw [flat_funcBody]
    simp [List.head?_append, List.getLast?_append, List.getLast?_cons]
  | localAssignment l ts ps as e x hp ht ha =>
    rw [flat_localAssignment]
    rcases hst with he | hx | ⟨h1, h2⟩
    · obtain ⟨init, t, h⟩ : ∃ init t, e.flat = init ++ [t] :=
        ⟨_, _, (List.dropLast_concat_getLast he).symm⟩
      simp [h, List.getLast?_append, List.getLast?_cons]
    · obtain ⟨init, t, h⟩ : ∃ init t, x.flat = init ++ [t] :=
        ⟨_, _, (List.dropLast_concat_getLast hx).symm⟩
      simp [h, List.getLast?_append, List.getLast?_cons]
    · rw [flatNames_empty ps as ts hp h2 h1]
      have h1 : ∀ t ∈ ts, t.flat = [] := h1
      have h2 : ∀ t ∈ as, t.flat = [] := h2
      simp [flat_vec, flat_punct, flatMap_empty h1, flatMap_empty h2]

/-- On straight trees the declaration order and the print order start and end alike. -/
theorem ends_tokens (n : Node) : Typed R₀ n → Straight n →
    n.tokens.head? = n.flat.head? ∧ n.tokens.getLast? = n.flat.getLast? := by
  induction n using Node.induct with
  | ht u => intros; exact ⟨rfl, rfl⟩
  | hn k cs ih =>
    intro hty hst
    obtain ⟨hst, hsts⟩ := (Node.every_node _ _ _).1 hst
    have ih := fun c hc => ih c hc (hty.cases.1 c hc) (hsts c hc)
    have h := straight_ends hty hst
    rw [← h.1, ← h.2, Node.tokens_node]
    exact ⟨head?_flatMap_congr fun c hc => (ih c hc).1, getLast?_flatMap_congr fun c hc => (ih c hc).2⟩

/-! ## Ranges -/

/-- The range of `n` is from its first to its last printed token. -/
def Covers (n : Node) : Prop :=
  n.ends = ⟨n.flat.head?.map (·.token.start), n.flat.getLast?.map (·.token.stop)⟩

theorem endss_eq (cs : List Node) : Node.endss cs = cs.map Node.ends := by
  induction cs with
  | nil => rfl
  | cons c cs ih => simp [Node.endss, ih]

theorem Kind.sig_regular (k : Kind) (h : k ≠ .genericFor ∧ k ≠ .funcBody ∧ k ≠ .localAssignment) :
    ∀ a ∈ k.sig, a.regular = true := by
  cases k <;> simp_all [Kind.sig, Ty.regular]

theorem HasTys.mem {as : List Ty} {cs : List Node} (h : HasTys R₀ as cs) : ∀ c ∈ cs, ∃ a ∈ as, HasTy R₀ a c := by
  induction as generalizing cs with
  | nil => simp_all
  | cons a as ih =>
    obtain ⟨c, cs, hc, hcs, rfl⟩ := hasTys_cons.1 h
    intro d hd
    rcases List.mem_cons.1 hd with rfl | hd
    · exact ⟨a, List.mem_cons_self, hc⟩
    · obtain ⟨b, hb, h⟩ := ih hcs d hd
      exact ⟨b, List.mem_cons_of_mem _ hb, h⟩

theorem not_option {a : Ty} (h : ∀ b, a ≠ .opt b) {c : Node} (hc : HasTy R₀ a c) {ds : List Node} :
    c ≠ .node .absent ds ∧ c ≠ .node .present ds := by
  constructor <;> rintro rfl <;> cases a <;> simp_all [HasTy, Kind.cat]

theorem Kind.ends_derived {k : Kind} (h : k.isContainer = false) (hf : k.fullRange = none) (es : List Ends) :
    k.ends es = Ends.both ⟨Ends.firstStart es, Ends.lastStop es⟩ := by
  cases k <;> simp_all [Kind.isContainer, Kind.ends, Kind.fullRange]

theorem covers_full {k : Kind} {cs : List Node} (hty : Typed R₀ (.node k cs)) (hk : k.isContainer = false)
    (hf : k.fullRange ≠ none) : Covers (.node k cs) := by
  cases hty.view with
  | plain hl => cases k <;> simp_all [Kind.fullRange, Kind.layout]
  | wrap hk o c x =>
    rw [Covers, flat_wrap hk, Node.ends, endss_eq]
    cases k <;> simp only [Kind.wraps, Bool.false_eq_true] at hk <;> simp [Kind.fullRange] at hf <;>
      simp [Kind.ends, Kind.fullRange, Ends.nth, Ends.both, Node.spanOf, Node.ends, Node.endss, List.getLast?_cons]
  | typeInst o p i j x =>
    rw [Covers, flat_typeInst, Node.ends, endss_eq]
    simp [Kind.ends, Kind.fullRange, Ends.nth, Ends.both, Node.spanOf, Node.ends, Node.endss, List.getLast?_cons,
      List.getLast?_append]
  | wrapSecond hk b o c x =>
    cases k <;> simp_all [Kind.fullRange, Kind.wrapsSecond]
  | _ => simp_all [Kind.fullRange]

end FM

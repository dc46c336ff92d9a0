import Verif.Proofs.Parser.CountTop
import Verif.Props.Order
import Verif.Props.Parsed

/-! Helper lemmas: the tokens of a source are different, and a tree that has them all was parsed without skipping any. -/

namespace FM.Parser.Count
open FM FM.Spec FM.Parser FM.Props

variable {c : Cfg} {source : Text} {rs : List (LexRes TokRef)}

theorem flat_headOf (t : TokRef) : ∃ ts, t.flat = headOf t :: ts := by
  unfold TokRef.flat headOf
  cases t.leading with
  | nil => exact ⟨_, rfl⟩
  | cons x l => exact ⟨_, rfl⟩

/-- The tokens of a source start one after the other. -/
theorem heads_ordered (hc : c.Reachable) (hl : lexAll c source = .ok rs) (he : errorsOf rs = []) {a b d : List TokRef}
    {x y : TokRef} (h : tokensOf rs = a ++ x :: (b ++ y :: d)) : (headOf x).start.bytes < (headOf y).start.bytes := by
  have hx : (headOf x).type ≠ .eof := by
    have hm : x ∈ tokensOf rs := by rw [h]; simp
    have htr := (trivia_attachment hc hl hm).1
    rcases lexAll_eof hc.good hl with ⟨rfl, -⟩ | ⟨init, t, h1, -, -, h2, -⟩
    · simp [tokensOf] at hm
    · have hi : x ∈ init := by
        rw [h] at h1
        rcases List.eq_nil_or_concat d with rfl | ⟨d', t', rfl⟩
        · have h1' : (a ++ x :: b) ++ [y] = init ++ [t] := by simpa using h1
          rw [← (List.append_inj' h1' rfl).1]; simp
        · have h1' : (a ++ x :: (b ++ y :: d')) ++ [t'] = init ++ [t] := by simpa using h1
          rw [← (List.append_inj' h1' rfl).1]; simp
      unfold headOf
      cases hld : x.leading with
      | nil => exact h2 x hi
      | cons u l =>
        intro h3
        have := htr u (by rw [hld]; exact List.mem_cons_self)
        simp only [List.headD_cons] at h3
        rw [h3] at this
        cases this
  obtain ⟨xs, hxs⟩ := flat_headOf x
  obtain ⟨ys, hys⟩ := flat_headOf y
  have key := tokens_strictly_ordered hc hl he (a := a.flatMap TokRef.flat) (x := headOf x)
    (b := xs ++ b.flatMap TokRef.flat) (y := headOf y) (d := ys ++ d.flatMap TokRef.flat)
    (by rw [flatTokens, h]; simp [hxs, hys]) hx
  unfold Token.cmp Position.cmp at key
  exact Nat.compare_eq_lt.1 key

theorem tokens_nodup (hc : c.Reachable) (hl : lexAll c source = .ok rs) (he : errorsOf rs = []) : (tokensOf rs).Nodup := by
  have key : ∀ l a, tokensOf rs = a ++ l → l.Nodup := by
    intro l
    induction l with
    | nil => intro _ _; exact List.nodup_nil
    | cons x l ih =>
      intro a h
      refine List.nodup_cons.2 ⟨fun hm => ?_, ih (a ++ [x]) (by simpa using h)⟩
      obtain ⟨b, d, rfl⟩ := List.append_of_mem hm
      exact Nat.lt_irrefl _ (heads_ordered hc hl he h)
  exact key _ [] rfl

theorem sum_le_of_subset (f : TokRef → Nat) : ∀ {l m : List TokRef}, l.Nodup → (∀ t ∈ l, t ∈ m) →
    (l.map f).sum ≤ (m.map f).sum
  | [], m, _, _ => by simp
  | x :: l, m, hn, hm => by
    obtain ⟨a, b, rfl⟩ := List.append_of_mem (hm x List.mem_cons_self)
    obtain ⟨h1, h2⟩ := List.nodup_cons.1 hn
    have ih := sum_le_of_subset f (l := l) (m := a ++ b) h2 fun t ht => by
      have := hm t (List.mem_cons_of_mem _ ht)
      simp only [List.mem_append, List.mem_cons] at this ⊢
      rcases this with h | rfl | h
      · exact .inl h
      · exact absurd ht h1
      · exact .inr h
    simp only [List.map_append, List.map_cons, List.sum_append, List.sum_cons] at ih ⊢
    omega

/-- The weight of the tokens of a source: those that do not start it have weight one. -/
def weight (l : List TokRef) (t : TokRef) : Nat := if (headOf t).start.bytes = 0 ∨ l.head? = some t then 0 else 1

@[reducible] def weights (l : List TokRef) : Wt where
  f := weight l
  all := l
  le t := by unfold weight; split <;> omega
  first t rest h := by unfold weight; rw [if_pos]; right; rw [h]; rfl
  made t g text h := by unfold weight; rw [if_pos]; left; exact made_at_zero h
  stop := by unfold weight; rw [if_pos]; left; rfl

theorem weight_total (hc : c.Reachable) (hl : lexAll c source = .ok rs) (he : errorsOf rs = []) :
    (tokensOf rs).length - 1 ≤ ((tokensOf rs).map (weight (tokensOf rs))).sum := by
  generalize hL : tokensOf rs = L
  cases L with
  | nil => simp
  | cons x l =>
    have key : ∀ m a, l = a ++ m → m.length ≤ (m.map (weight (x :: l))).sum := by
      intro m
      induction m with
      | nil => simp
      | cons y m ih =>
        intro a h
        have h1 := ih (a ++ [y]) (by simpa using h)
        have h2 := heads_ordered hc hl he (a := []) (x := x) (b := a) (y := y) (d := m) (by rw [hL, h]; rfl)
        have h3 : weight (x :: l) y = 1 := by
          unfold weight
          rw [if_neg]
          rintro (h3 | h3)
          · omega
          · cases h3; omega
        simp only [List.map_cons, List.sum_cons, List.length_cons]
        omega
    have := key l [] rfl
    simp only [List.map_cons, List.sum_cons, List.length_cons]
    omega

theorem kept_silent (hc : c.Reachable) (hl : lexAll c source = .ok rs) {r : AstResult} (h : parseFallible c source = .ok r)
    (he : r.errors = []) (hk : ∀ t ∈ tokensOf rs, t ∈ r.ast.nodes.flat ++ [r.ast.eof]) : r.silent = 0 := by
  have hne : errorsOf rs = [] := by rw [← tokenizer_errors_reported hc hl h, he]; rfl
  have hok := all_ok_of_no_errors hne fun es hr => failed_results_have_errors hc hl hr
  obtain ⟨R, hty⟩ := parsed_typed hc h
  obtain ⟨rs', hl', h⟩ := parseFallible_ok h
  rw [hl] at hl'
  cases hl'
  rw [hok] at h
  letI W := weights (tokensOf rs)
  obtain ⟨rest, h1, h2⟩ := parseTokens_cnt (c := c) (r := r) h he
  have h3 := sum_flat (weight (tokensOf rs)) r.ast.nodes ⟨_, hty⟩
  have h4 := sum_le_of_subset (weight (tokensOf rs)) (tokens_nodup hc hl hne) hk
  have h5 := weight_total hc hl hne
  have h6 : sz r.ast.nodes = (r.ast.nodes.tokens.map (weight (tokensOf rs))).sum := rfl
  have h7 : weight (tokensOf rs) r.ast.eof ≤ mu (r.ast.eof :: rest) := by
    have hN : N = (tokensOf rs).length := rfl
    have h8 : weight (tokensOf rs) r.ast.eof ≤ 1 := W.le _
    unfold mu
    rcases Nat.lt_or_ge 1 N with h9 | h9
    · simp only [List.length_cons]; omega
    · have h10 : (tokensOf rs).head? = some r.ast.eof := by
        have h11 := h1
        obtain ⟨a, h11⟩ := h11
        change a ++ r.ast.eof :: rest = tokensOf rs at h11
        have h12 : (a ++ r.ast.eof :: rest).length ≤ 1 := by rw [h11]; omega
        have h13 : a = [] := List.eq_nil_of_length_eq_zero (by simp only [List.length_append, List.length_cons] at h12; omega)
        rw [← h11, h13]; rfl
      have : weight (tokensOf rs) r.ast.eof = 0 := by unfold weight; rw [if_pos (.inr h10)]
      omega
  have hN : N = (tokensOf rs).length := rfl
  simp only [List.map_append, List.sum_append, List.map_cons, List.map_nil, List.sum_cons, List.sum_nil] at h4
  omega

end FM.Parser.Count

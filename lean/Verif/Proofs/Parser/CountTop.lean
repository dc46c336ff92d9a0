import Verif.Proofs.Parser.CountStmt
import Verif.Proofs.Parser.Accept
import Verif.Proofs.Ast.Tokens

/-! Helper lemmas: counting the tokens of a source. -/

namespace FM.Parser.Count
open FM FM.Spec FM.Parser FM.Parser.Clean

variable {c : Cfg}

/-! ## The main loop -/

section
variable [Wt]

theorem topBlock_cnt {l : List TokRef} {r : Run (Res Blk)} (hl : l <:+ Wt.all) (h : topBlock c (l.map .ok) = .ok r) (he : r.errs = []) :
    ∃ l', r.toks = l'.map .ok ∧ l' <:+ Wt.all ∧ mu l' + r.silent + sz r.val ≤ mu l := by
  have hlen : l.length ≤ N := hl.length_le
  obtain ⟨l', h1, h2, h3, h4⟩ := (parsers_cnt (c := c) _).block l 0 hlen hl r h he
  exact ⟨l', h1, h2, by simpa [Le] using h4⟩

theorem sz_merge (a b : Blk) : sz (a.merge b) ≤ sz a + sz b := by
  have h : sz (a.last.or b.last) ≤ sz a.last + sz b.last := by
    cases a.last with
    | none => exact Nat.le_add_left _ _
    | some x => exact Nat.le_add_right _ _
  have h1 : ∀ b : Blk, sz b = sz b.stmts + sz b.last := fun _ => rfl
  rw [h1, h1 a, h1 b]
  simp only [Blk.merge, sz_append]
  omega

theorem mu_suffix {l l' : List TokRef} (h : l' <:+ l) : mu l' ≤ mu l := by
  have := h.length_le
  unfold mu
  omega

/-- What remains, what was given up and what the tree has. -/
def Inv (s : St) : Prop := ∃ l, s.toks = l.map .ok ∧ l <:+ Wt.all ∧ mu l + s.silent + sz s.val ≤ mu Wt.all

theorem skipToken_cnt {s : St} {st : Step} (hs : Inv s) (h : skipToken s = .ok st) : Inv st.state := by
  obtain ⟨l, h1, h2, h3⟩ := hs
  unfold skipToken at h
  rw [h1] at h
  cases l with
  | nil => cases h
  | cons t l =>
    simp only [List.map_cons] at h
    have h4 : l <:+ Wt.all := (List.suffix_cons t l).trans h2
    have h5 := mu_suffix (List.suffix_cons t l)
    split at h
    · cases h; exact ⟨t :: l, h1, h2, h3⟩
    · split at h <;> cases h
      · exact ⟨l, rfl, h4, by simp only [Step.state]; omega⟩
      · exact ⟨l, rfl, h4, by simp only [Step.state]; omega⟩

theorem moreStatements_cnt {b : Bool} {s : St} {st : Step} (hs : Inv s) (h : moreStatements c b s = .ok st)
    (he : st.state.errs = []) : Inv st.state := by
  obtain ⟨l, h1, h2, h3⟩ := hs
  unfold moreStatements at h
  rw [h1] at h
  split at h
  · rename_i r hr
    have hre : r.errs = [] → ∃ l', r.toks = l'.map .ok ∧ l' <:+ Wt.all ∧ mu l' + r.silent + sz r.val ≤ mu l := topBlock_cnt h2 hr
    split at h
    · rename_i blk hb
      split at h
      · obtain ⟨⟨e, h4⟩, -⟩ := skipToken_grow h
        rw [he] at h4
        obtain ⟨l', h5, h6, h7⟩ := hre (List.append_eq_nil_iff.1 (List.append_eq_nil_iff.1 h4.symm).1).2
        exact skipToken_cnt ⟨l', h5, h6, by simp only; omega⟩ h
      · split at h <;> cases h
        simp only [Step.state, List.append_eq_nil_iff] at he
        obtain ⟨l', h5, h6, h7⟩ := hre he.1.2
        refine ⟨l', h5, h6, ?_⟩
        have := sz_merge s.val blk
        rw [hb] at h7
        simp only [Step.state, sz_value] at *
        omega
    · cases h
      simp only [Step.state, List.append_eq_nil_iff] at he
      obtain ⟨l', h5, h6, h7⟩ := hre he.2
      exact ⟨l', h5, h6, by simp only [Step.state]; omega⟩
  · cases h
  · cases h

theorem mainStep_cnt {b : Bool} {s : St} {st : Step} (hs : Inv s) (h : mainStep c b s = .ok st)
    (he : st.state.errs = []) : Inv st.state := by
  obtain ⟨l, h1, h2, h3⟩ := hs
  unfold mainStep at h
  split at h
  · split at h
    · cases h; exact ⟨l, h1, h2, h3⟩
    · exact moreStatements_cnt ⟨l, h1, h2, h3⟩ h he
  · exact moreStatements_cnt ⟨l, h1, h2, h3⟩ h he
  · rename_i hf
    rw [h1] at hf
    cases l with
    | nil => cases hf
    | cons t l => simp at hf
  · cases h; exact ⟨l, h1, h2, h3⟩

theorem mainLoop_cnt {b : Bool} : ∀ {n : Nat} {s s' : St}, Inv s → mainLoop c b n s = .ok s' → s'.errs = [] → Inv s'
  | 0, _, _, _, h, _ => by cases h
  | n + 1, s, s', hs, h, he => by
    unfold mainLoop at h
    split at h
    · rename_i s1 h1
      cases h
      exact mainStep_cnt hs h1 he
    · rename_i s1 h1
      obtain ⟨⟨e, h2⟩, -⟩ := mainLoop_grow h
      rw [he] at h2
      exact mainLoop_cnt (mainStep_cnt hs h1 (List.append_eq_nil_iff.1 h2.symm).1) h he
    · cases h
    · cases h

/-- The tokens of the tree, counted, and the times the parser gave up. -/
theorem parseTokens_cnt {r : AstResult} (h : parseTokens c (Wt.all.map .ok) = .ok r) (he : r.errors = []) :
    ∃ rest, r.ast.eof :: rest <:+ Wt.all ∧ mu (r.ast.eof :: rest) + r.silent + sz r.ast.nodes ≤ N - 1 := by
  have hN : mu (Wt.all : List TokRef) = N - 1 := by
    have : N = Wt.all.length := rfl
    unfold mu; omega
  unfold parseTokens at h
  split at h
  · rename_i r1 h1
    split at h
    · rename_i s h2
      have h3 : s.errs = [] := by
        unfold finish at h
        repeat' split at h
        all_goals cases h
        · exact he
        · exact (List.append_eq_nil_iff.1 he).1
      obtain ⟨⟨e, h4⟩, -⟩ := mainLoop_grow h2
      rw [h3] at h4
      obtain ⟨l', h5, h6, h7⟩ := topBlock_cnt (List.suffix_refl _) h1 (List.append_eq_nil_iff.1 h4.symm).1
      have h8 : sz (firstBlock r1.val) ≤ sz r1.val := by
        cases r1.val with
        | value b => exact Nat.le_refl _
        | _ => exact Nat.zero_le _
      obtain ⟨l, h9, h10, h11⟩ := mainLoop_cnt ⟨l', h5, h6, by simp only; omega⟩ h2 h3
      unfold finish at h
      rw [h9] at h
      cases l with
      | nil => cases h
      | cons t rest =>
        simp only [List.map_cons] at h
        split at h
        · cases h
          exact ⟨rest, h10, by rw [sz_blkNode]; simp only; omega⟩
        · cases h
    · cases h
    · cases h
  · cases h
  · cases h

end

/-! ## Printed tokens are among those of the tree -/

theorem sum_part (f : TokRef → Nat) : ∀ (l : List (List TokRef)), ((part l 0).map f).sum + (l.tail.flatten.map f).sum = (l.flatten.map f).sum
  | [] => by simp [part]
  | x :: l => by simp [part]

theorem sum_part2 (f : TokRef → Nat) : ∀ (l : List (List TokRef)), ((part l 0).map f).sum + ((part l 1).map f).sum ≤ (l.flatten.map f).sum
  | [] => by simp [part]
  | [x] => by simp [part]
  | x :: y :: l => by simp [part, ← Nat.add_assoc]

theorem sum_joinNames (f : TokRef → Nat) : ∀ (ps : List (List (List TokRef))) (as bs : List (List TokRef)),
    ((joinNames true ps as bs).map f).sum ≤ (ps.flatten.flatten.map f).sum + (as.flatten.map f).sum + (bs.flatten.map f).sum
  | [], _, _ => by simp [joinNames]
  | p :: ps, as, bs => by
    have h1 := sum_joinNames f ps as.tail bs.tail
    have h2 := sum_part2 f p
    have h3 := sum_part f as
    have h4 := sum_part f bs
    simp only [joinNames, if_true, List.map_append, List.sum_append, List.flatten_cons, List.flatten_append]
    omega

theorem sum_flatNames (f : TokRef → Nat) {a : Ty} {ps as bs : List Node} (hp : ∀ p ∈ ps, HasTy R₀ (.pair a) p) :
    ((flatNames ps as bs).map f).sum ≤
      ((ps.flatMap Node.flat).map f).sum + ((as.flatMap Node.flat).map f).sum + ((bs.flatMap Node.flat).map f).sum := by
  obtain ⟨h1, -⟩ := punct_parts hp
  have h := sum_joinNames f (ps.map fun c => c.children.map Node.flat) (as.map Node.flat) (bs.map Node.flat)
  rw [h1, ← List.flatMap_def, ← List.flatMap_def] at h
  exact h

theorem sum_flatMap_le (f : TokRef → Nat) : ∀ {cs : List Node}, (∀ c ∈ cs, (c.flat.map f).sum ≤ (c.tokens.map f).sum) →
    ((cs.flatMap Node.flat).map f).sum ≤ ((cs.flatMap Node.tokens).map f).sum
  | [], _ => by simp
  | c :: cs, h => by
    have h1 := h c List.mem_cons_self
    have h2 := sum_flatMap_le f fun d hd => h d (List.mem_cons_of_mem _ hd)
    simp only [List.flatMap_cons, List.map_append, List.sum_append]
    omega

theorem sum_flat (f : TokRef → Nat) (n : Node) : Typed R₀ n → (n.flat.map f).sum ≤ (n.tokens.map f).sum := by
  induction n using Node.induct with
  | ht u => intro _; exact Nat.le_refl _
  | hn k cs ih =>
    intro hty
    have key := sum_flatMap_le f (cs := cs) fun c hc => ih c hc (hty.cases.1 c hc)
    rw [Node.tokens_node]
    refine Nat.le_trans ?_ key
    clear ih key
    cases hty.view with
    | plain hl => rw [Node.flat_plain hl]; exact Nat.le_refl _
    | wrap hk o c x => rw [flat_wrap hk]; simp [Nat.add_comm]
    | wrapSecond hk b o c x => rw [flat_wrapSecond hk]; simp; omega
    | fieldExprKey o c x e v => rw [flat_fieldExprKey]; simp; omega
    | tyArray o c a x => rw [flat_tyArray]; simp; omega
    | tyCallback g o c x a r => rw [flat_tyCallback]; simp; omega
    | typeInst o p i j x => rw [flat_typeInst]; simp; omega
    | numericFor => rw [flat_numericFor]; simp; omega
    | genericFor g ps i e d b n ts hp ht =>
      have := sum_flatNames f (as := []) (bs := ts) hp
      rw [flat_genericFor]
      simp at this ⊢
      omega
    | funcBody g o c ps ts r b n hp ht =>
      have := sum_flatNames f (as := []) (bs := ts) hp
      rw [flat_funcBody]
      simp at this ⊢
      omega
    | localAssignment l ts ps as e x hp ht ha =>
      have := sum_flatNames f (as := as) (bs := ts) hp
      rw [flat_localAssignment]
      simp at this ⊢
      omega

/-! ## Tokens the parser makes -/

theorem symbolLeading_extends {text : Text} : ∀ {fuel : Nat} {l l' : Lx} {acc ts : List Token} {t : Token},
    symbolLeading c text fuel l acc = .ok (.ok (ts, t, l')) → ∃ ws, ts = acc ++ ws
  | 0, _, _, _, _, _, h => by cases h
  | fuel + 1, l, l', acc, ts, t, h => by
    unfold symbolLeading at h
    cases hp : processNext c l with
    | panic => rw [hp] at h; cases h
    | diverge => rw [hp] at h; cases h
    | ok x =>
      rw [hp] at h
      simp only [Outcome.bind] at h
      repeat' split at h
      all_goals first
        | cases h; done
        | (cases h; exact ⟨[], by simp⟩)
        | (obtain ⟨ws, rfl⟩ := symbolLeading_extends h; exact ⟨_, List.append_assoc ..⟩)

/-- The first piece of a token reference. -/
def headOf (t : TokRef) : Token := t.leading.headD t.token

theorem made_at_zero {g : Features} {t : TokRef} {text : Text} (h : symbolSpecific ⟨g, .lua51⟩ text = .ok (.ok t)) :
    (headOf t).start.bytes = 0 := by
  have hc : Cfg.Good ⟨g, .lua51⟩ := by
    clear h
    rcases g with ⟨a, b, d, e, g, i⟩
    unfold Cfg.Good
    revert a b d e g i
    decide
  unfold symbolSpecific at h
  cases h1 : symbolLeading ⟨g, .lua51⟩ text (text.length + 2) (Lx.new text) [] with
  | panic => rw [h1] at h; cases h
  | diverge => rw [h1] at h; cases h
  | ok x =>
    rw [h1] at h
    cases x with
    | error e => cases h
    | ok x =>
      obtain ⟨ld, t0, l⟩ := x
      have ht : t.leading = ld ∧ t.token = t0 := by
        simp only [Outcome.bind] at h
        split at h
        · split at h <;> cases h
          exact ⟨rfl, rfl⟩
        · cases h
        · cases h
      unfold headOf
      rw [ht.1, ht.2]
      unfold symbolLeading at h1
      cases hp : processNext ⟨g, .lua51⟩ (Lx.new text) with
      | panic => rw [hp] at h1; cases h1
      | diverge => rw [hp] at h1; cases h1
      | ok x =>
        obtain ⟨o, l'⟩ := x
        have hs := step_spec hc (At.new text) hp
        rw [hp] at h1
        simp only [Outcome.bind] at h1
        have hstart : ∀ u, o = some (.ok u) → u.start = position [] := by
          rintro u rfl
          rcases hs with ⟨-, -, h, -⟩ | ⟨-, -, h, -⟩ | ⟨w, -, -, -, ⟨v, h, -, h', -⟩ | ⟨es, h, -⟩ | ⟨v, es, h, -⟩⟩
          · cases h
          · cases h; rfl
          · cases h; exact h'
          · cases h
          · cases h
        cases o with
        | none => cases h1
        | some o =>
          cases o with
          | fatal es => cases es <;> cases h1
          | recovered u es => cases es <;> cases h1
          | ok u =>
            have hu := hstart u rfl
            simp only at h1
            split at h1
            · obtain ⟨ws, rfl⟩ := symbolLeading_extends h1
              simp only [List.nil_append, List.cons_append, List.headD]
              rw [hu]; rfl
            · cases h1
              simp only [List.headD]
              rw [hu]; rfl
            · cases h1
            · split at h1 <;> cases h1

end FM.Parser.Count

import Verif.Proofs.Parser.CleanStmt
import Verif.Proofs.Parser.Source

/-! Helper lemmas: what it means that a source is accepted. -/

namespace FM.Parser.Clean
open FM.Spec FM.Parser

variable {c : Cfg} {self : Rec} {α : Type}

/-! ## Blocks where no statement starts -/

theorem parseStmt_stuck {l : List TokRef} {t : TokRef} (hd : Hd l t) (h : startsStmt c t = false) :
    cwp (parseStmt self c) l fun r l' => r = .notFound ∧ l' = l := by
  unfold startsStmt at h
  simp only [Bool.or_eq_false_iff] at h
  unfold parseStmt
  refine cwp_bind (cwp_current_hd hd ?_)
  simp only [h, Bool.or_false, Bool.false_eq_true, if_false]
  exact cwp_pure ⟨rfl, rfl⟩

theorem parseLastStmt_stuck {l : List TokRef} {t : TokRef} (hd : Hd l t) (h1 : is .kReturn t = false) (h2 : is .kBreak t = false) :
    cwp (parseLastStmt self) l fun r l' => r = .notFound ∧ l' = l := by
  unfold parseLastStmt
  refine cwp_bind (cwp_takeIf_hd hd (fun rest _ h => by simp [h1, h2] at h) fun _ => cwp_pure ⟨rfl, rfl⟩)

theorem parseBlock_stuck {l : List TokRef} {t : TokRef} (hd : Hd l t) (h : starts c t = false) :
    cwp (parseBlock self c) l fun r l' => r = .value ⟨[], none⟩ ∧ l' = l := by
  unfold starts at h
  simp only [Bool.or_eq_false_iff] at h
  unfold parseBlock
  cstep; cstep
  rename_i n
  cases n with
  | zero => exact cwp_diverge
  | succ n =>
    unfold blockLoop
    refine cwp_bind (cwp_mono (parseStmt_stuck hd h.1.1) ?_)
    rintro _ _ ⟨rfl, rfl⟩
    refine cwp_bind (cwp_mono (parseLastStmt_stuck hd h.1.2 h.2) ?_)
    rintro _ _ ⟨rfl, rfl⟩
    exact cwp_pure ⟨rfl, rfl⟩

/-! ## All parser functions -/

theorem parsers_clean (hc : c.feat.Closed) : ∀ n, RecC c (parsers c n)
  | 0 => ⟨fun _ => cwp_diverge, fun _ => cwp_diverge, fun _ => cwp_diverge, fun _ _ _ _ _ _ => cwp_diverge, fun _ _ => cwp_diverge, fun _ _ => cwp_diverge⟩
  | n + 1 => by
    have hs := parsers_clean hc n
    exact ⟨parseBlock_clean hc hs, parseExpression_clean hs, parsePrimary_clean hs, fun l e _ => parseClimb_clean hs l e, parseType_clean hs, parseTypeOrPack_clean hs⟩

theorem topBlock_clean (hc : c.feat.Closed) (l : List TokRef) :
    cwp (topBlock c) l fun r l' => ∃ b, r = .value b ∧ BQ c l b l' := by
  intro r hr
  exact parseBlock_clean' hc (parsers_clean hc (l.map LexRes.ok).length) l r hr

theorem topBlock_stuck {l : List TokRef} {t : TokRef} (hd : Hd l t) (h : starts c t = false) :
    cwp (topBlock c) l fun r l' => r = .value ⟨[], none⟩ ∧ l' = l := by
  intro r hr
  exact parseBlock_stuck (self := parsers c (l.map LexRes.ok).length) hd h r hr

/-! ## The main loop -/

/-- The state of a step. -/
def _root_.FM.Parser.Step.state : Step → St
  | .stop s => s
  | .next s => s

theorem skipToken_grow {s : St} {st : Step} (h : skipToken s = .ok st) : (∃ e, st.state.errs = s.errs ++ e) ∧ st.state.silent = s.silent := by
  unfold skipToken at h
  repeat' split at h
  all_goals first | (cases h; refine ⟨?_, rfl⟩; first | exact ⟨_, rfl⟩ | exact ⟨_, by simp only [Step.state, List.append_assoc]; rfl⟩ | exact ⟨[], by simp [Step.state]⟩ | exact ⟨_, by simp only [Step.state, List.append_assoc]; rfl⟩) | cases h

theorem moreStatements_grow {b : Bool} {s : St} {st : Step} (h : moreStatements c b s = .ok st) :
    (∃ e, st.state.errs = s.errs ++ e) ∧ ∃ n, st.state.silent = s.silent + n := by
  unfold moreStatements at h
  split at h
  · split at h
    · split at h
      · obtain ⟨⟨e, h1⟩, h2⟩ := skipToken_grow h
        exact ⟨⟨_, by rw [h1, List.append_assoc]⟩, _, h2⟩
      · split at h <;> cases h
        exact ⟨⟨_, by simp only [Step.state, List.append_assoc]; rfl⟩, _, rfl⟩
    · cases h
      exact ⟨⟨_, rfl⟩, _, rfl⟩
  · cases h
  · cases h

theorem mainStep_grow {b : Bool} {s : St} {st : Step} (h : mainStep c b s = .ok st) :
    (∃ e, st.state.errs = s.errs ++ e) ∧ ∃ n, st.state.silent = s.silent + n := by
  unfold mainStep at h
  split at h
  · split at h
    · cases h; exact ⟨⟨[], by simp [Step.state]⟩, 0, rfl⟩
    · exact moreStatements_grow h
  · exact moreStatements_grow h
  · cases h; exact ⟨⟨_, rfl⟩, 0, rfl⟩
  · cases h; exact ⟨⟨[], by simp [Step.state]⟩, 0, rfl⟩

theorem mainLoop_grow {b : Bool} : ∀ {n : Nat} {s s' : St}, mainLoop c b n s = .ok s' → (∃ e, s'.errs = s.errs ++ e) ∧ ∃ n, s'.silent = s.silent + n
  | 0, _, _, h => by cases h
  | n + 1, s, s', h => by
    unfold mainLoop at h
    split at h
    · rename_i h1; cases h; exact mainStep_grow h1
    · rename_i s1 h1
      obtain ⟨⟨e, he⟩, k, hk⟩ := mainStep_grow h1
      obtain ⟨⟨e', he'⟩, k', hk'⟩ := mainLoop_grow h
      refine ⟨⟨e ++ e', ?_⟩, k + k', ?_⟩
      · rw [he', ← List.append_assoc, ← he]; rfl
      · rw [hk', ← Nat.add_assoc, ← hk]; rfl
    · cases h
    · cases h

/-- A clean step ends the loop, after at most one further last statement. -/
theorem mainStep_clean (hc : c.feat.Closed) {b : Blk} {l : List TokRef} {st : Step}
    (hb : b.last.isSome = false → ∀ t, Hd l t → starts c t = false)
    (h : mainStep c b.last.isSome ⟨b, l.map .ok, [], 0⟩ = .ok st) (he : st.state.errs = []) (hs : st.state.silent = 0) :
    ∃ dropped l', st = .stop ⟨b, l'.map .ok, [], 0⟩ ∧ l = yield dropped ++ l' ∧ OptP (SemiC c .lastStmt) dropped ∧
      (b.last = none → dropped = none) := by
  cases l with
  | nil => cases h; exact ⟨none, [], rfl, rfl, optP_none.2 trivial, fun _ => rfl⟩
  | cons t l =>
    simp only [mainStep, List.map_cons] at h
    split at h
    · cases h; exact ⟨none, t :: l, rfl, rfl, optP_none.2 trivial, fun _ => rfl⟩
    · rename_i hne
      unfold moreStatements at h
      split at h
      · rename_i r hr
        have hr : topBlock c ((t :: l).map .ok) = .ok r := hr
        simp only [List.nil_append, Nat.zero_add] at h
        split at h
        · rename_i b' hb'
          split at h
          · rename_i hemp
            obtain ⟨⟨e, h1⟩, h2⟩ := skipToken_grow h
            rw [he] at h1
            rw [hs] at h2
            have h3 : r.errs = [] := (List.append_eq_nil_iff.1 h1.symm).1
            obtain ⟨l', hl', b1, hb1, hq⟩ := topBlock_clean hc _ r hr h3 h2.symm
            rw [hb'] at hb1; cases hb1
            have hb2 : b'.stmts = [] := List.isEmpty_iff.1 hemp
            have hy : t :: l = yield b'.last ++ l' := by have := hq.toks; rw [yield_blk, hb2] at this; simpa using this
            unfold skipToken at h
            simp only [hl', h3, show r.silent = 0 from h2.symm] at h
            cases l' with
            | nil => cases h
            | cons u l' =>
              simp only [List.map_cons] at h
              split at h
              · cases h
                refine ⟨b'.last, u :: l', rfl, hy, hq.conf.last, fun hn => ?_⟩
                obtain ⟨_, -, h4, -⟩ := topBlock_stuck .cons (hb (by rw [hn]; rfl) t .cons) r hr h3 h2.symm
                rw [hb'] at h4; cases h4; rfl
              · split at h <;> cases h
                · rename_i hu; cases hu
                · cases he
          · split at h
            · rename_i es hes
              cases h
              simp only [Step.state, List.append_eq_nil_iff] at he hs
              cases hlast : b.last.isSome with
              | false =>
                obtain ⟨_, -, h4, -⟩ := topBlock_stuck .cons (hb hlast t .cons) r hr he.1 hs
                rw [hb'] at h4; cases h4
                rename_i hne
                exact absurd rfl hne
              | true =>
                rw [hlast] at hes
                unfold lateStatement at hes
                simp only [if_true] at hes
                split at hes
                · cases hes; cases he.2
                · cases hes
            · cases h
            · cases h
        · rename_i hnv
          cases h
          obtain ⟨_, -, b1, hb1, -⟩ := topBlock_clean hc _ r hr he hs
          exact absurd hb1 (hnv _)
      · cases h
      · cases h

theorem mainLoop_clean (hc : c.feat.Closed) {b : Blk} {l : List TokRef} {n : Nat} {s : St}
    (hb : b.last.isSome = false → ∀ t, Hd l t → starts c t = false)
    (h : mainLoop c b.last.isSome n ⟨b, l.map .ok, [], 0⟩ = .ok s) (he : s.errs = []) (hs : s.silent = 0) :
    ∃ dropped l', s = ⟨b, l'.map .ok, [], 0⟩ ∧ l = yield dropped ++ l' ∧ OptP (SemiC c .lastStmt) dropped ∧
      (b.last = none → dropped = none) := by
  cases n with
  | zero => cases h
  | succ n =>
    unfold mainLoop at h
    split at h
    · rename_i s1 h1
      cases h
      obtain ⟨d, l', h2, h3⟩ := mainStep_clean hc hb h1 he hs
      cases h2
      exact ⟨d, l', rfl, h3⟩
    · rename_i s1 h1
      obtain ⟨⟨e, h2⟩, k, h3⟩ := mainLoop_grow h
      rw [he] at h2; rw [hs] at h3
      obtain ⟨d, l', h4, -⟩ := mainStep_clean hc hb h1 (List.append_eq_nil_iff.1 h2.symm).1 (by simp only [Step.state]; omega)
      cases h4
    · cases h
    · cases h

/-- A source that is accepted without giving up: its tokens are those of the Ast, except for at most one last statement after
the last statement of the Ast, and the end of the file. -/
theorem parseTokens_clean (hc : c.feat.Closed) {l : List TokRef} {r : AstResult} (h : parseTokens c (l.map .ok) = .ok r)
    (he : r.errors = []) (hs : r.silent = 0) :
    ∃ b dropped rest, r.ast.nodes = b.node ∧ BlkC c b ∧ l = yield b ++ (yield dropped ++ r.ast.eof :: rest) ∧
      r.ast.eof.isEof = true ∧ OptP (SemiC c .lastStmt) dropped ∧ (b.last = none → dropped = none) := by
  unfold parseTokens at h
  split at h
  · rename_i r1 h1
    split at h
    · rename_i s h2
      have h3 : s.errs = [] ∧ s.silent = 0 := by
        unfold finish at h
        repeat' split at h
        all_goals cases h
        · exact ⟨he, hs⟩
        · exact ⟨(List.append_eq_nil_iff.1 he).1, hs⟩
      obtain ⟨⟨e, h4⟩, k, h5⟩ := mainLoop_grow h2
      rw [h3.1] at h4; rw [h3.2] at h5
      have h6 : r1.errs = [] := (List.append_eq_nil_iff.1 h4.symm).1
      have h7 : r1.silent = 0 := by simp only at h5; omega
      obtain ⟨l', hl', b, hb, hq⟩ := topBlock_clean hc l r1 h1 h6 h7
      rw [hb, hl', h6, h7] at h2
      obtain ⟨d, l'', rfl, h8, h9, h10⟩ := mainLoop_clean hc (fun hn => hq.stuck (Option.not_isSome_iff_eq_none.1 (Bool.eq_false_iff.1 hn))) h2 h3.1 h3.2
      cases l'' with
      | nil => cases h
      | cons t rest =>
        simp only [finish, List.map_cons] at h
        split at h
        · cases h
          refine ⟨b, d, rest, rfl, hq.conf, ?_, ‹_›, h9, h10⟩
          rw [hq.toks, h8]
        · cases h
    · cases h
    · cases h
  · cases h
  · cases h

end FM.Parser.Clean

import Verif.Spec.Recovery
import Verif.Spec.Tokens
import Verif.Proofs.Parser.Says

/-! Helper lemmas: the errors of the loop of `parse_fallible`. -/

namespace FM.Proofs.Recovery
open FM.Spec FM.Parser FM.Parser.Says

variable {c : Cfg}

/-- No two neighbours are about tokens that begin no statement. -/
def Apart : List Err → Prop
  | a :: b :: l => (strayToken a = none ∨ strayToken b = none) ∧ Apart (b :: l)
  | _ => True

theorem Apart.neighbours {a b : Err} {post : List Err} : ∀ {pre : List Err}, Apart (pre ++ a :: b :: post) →
    strayToken a = none ∨ strayToken b = none
  | [], h => h.1
  | [_], h => h.2.1
  | _ :: _ :: _, h => Apart.neighbours (pre := _ :: _) h.2

theorem Apart.snoc {e : Err} : ∀ {l : List Err}, Apart l → (∀ a, l.getLast? = some a → strayToken a = none ∨ strayToken e = none) →
    Apart (l ++ [e])
  | [], _, _ => trivial
  | [a], _, h => ⟨h a rfl, trivial⟩
  | _ :: b :: l, h, h' => ⟨h.1, Apart.snoc (l := b :: l) h.2 (by rw [List.getLast?_cons_cons] at h'; exact h')⟩

theorem Apart.append {l : List Err} (h : Apart l) : ∀ g : List Err, (∀ e ∈ g, strayToken e = none) → Apart (l ++ g) := by
  intro g
  induction g generalizing l with
  | nil => intro _; rw [List.append_nil]; exact h
  | cons e g ih =>
    intro hg
    have := ih (h.snoc (e := e) fun _ _ => .inr (hg e (List.mem_cons_self ..))) fun x hx => hg x (List.mem_cons_of_mem _ hx)
    rwa [List.append_assoc] at this

/-- A single error: it says something, and one about a token that begins no statement is about just that token. -/
def Sound : Err → Prop
  | .tokenizer _ => True
  | .ast t m x => m ≠ "" ∧ (m = strayMessage → x = none ∧ t.type.kind ≠ .eof)

theorem Good.sound {e : Err} (h : Good e) : Sound e := by
  cases e with
  | tokenizer e => trivial
  | ast t m x => exact ⟨h.1, fun hm => absurd hm h.2⟩

theorem Good.stray {e : Err} (h : Good e) : strayToken e = none := by
  cases e with
  | tokenizer e => rfl
  | ast t m x => exact if_neg h.2

theorem strays_good {g : List Err} (h : ∀ e ∈ g, Good e) : g.filterMap strayToken = [] := by
  induction g with
  | nil => rfl
  | cons e g ih =>
    rw [List.filterMap_cons_none (Good.stray (h e (List.mem_cons_self ..)))]
    exact ih fun x hx => h x (List.mem_cons_of_mem _ hx)

/-- The errors so far, after the results in `past`. -/
structure Sofar (past : Toks) (errs : List Err) : Prop where
  apart : Apart errs
  sound : ∀ e ∈ errs, Sound e
  order : (errs.filterMap strayToken).Sublist ((tokensOf past).map (·.token))

theorem Sofar.nil : Sofar [] [] := ⟨trivial, nofun, List.Sublist.refl _⟩

theorem Sofar.more {past new : Toks} {errs g : List Err} (h : Sofar past errs) (hg : ∀ e ∈ g, Good e) : Sofar (past ++ new) (errs ++ g) := by
  refine ⟨h.apart.append g fun e he => Good.stray (hg e he), fun e he => ?_, ?_⟩
  · exact (List.mem_append.1 he).elim (h.sound e) fun he => Good.sound (hg e he)
  · rw [List.filterMap_append, strays_good hg, List.append_nil, tokensOf, List.filterMap_append, List.map_append]
    exact h.order.trans (List.sublist_append_left ..)

theorem Sofar.stray {past : Toks} {errs : List Err} {t : TokRef} {x : LexRes TokRef} (h : Sofar past errs) (hl : lastUnexpected errs = false)
    (he : t.isEof = false) (hx : tokensOf [x] = [t]) : Sofar (past ++ [x]) (errs ++ [.ast t.token unexpectedToken none]) := by
  refine ⟨h.apart.snoc fun a ha => .inl ?_, fun e hm => ?_, ?_⟩
  · unfold lastUnexpected at hl
    rw [ha] at hl
    cases a with
    | tokenizer e => rfl
    | ast t m y => exact if_neg (show ¬ m = unexpectedToken by simpa using hl)
  · rcases List.mem_append.1 hm with hm | hm
    · exact h.sound e hm
    · cases List.mem_singleton.1 hm
      refine ⟨by decide, fun _ => ⟨rfl, fun hk => ?_⟩⟩
      rw [TokRef.isEof, hk] at he
      cases he
  · have h1 : tokensOf (past ++ [x]) = tokensOf past ++ [t] := by
      rw [← hx]
      exact List.filterMap_append
    rw [List.filterMap_append, h1, List.map_append]
    exact h.order.append (List.Sublist.refl _)

/-- Where the loop is. -/
def At (rs : Toks) (s : St) : Prop := ∃ past, rs = past ++ s.toks ∧ Sofar past s.errs

/-- What a step leads to. -/
def After (rs : Toks) : Step → Prop
  | .stop s => At rs s
  | .next s => At rs s

theorem skipToken_at {rs : Toks} {s : St} {st : Step} (h : At rs s) (hs : skipToken s = .ok st) : After rs st := by
  obtain ⟨v, ts, es, k⟩ := s
  obtain ⟨past, rfl, h⟩ := h
  unfold skipToken at hs
  dsimp only at h hs
  split at hs
  · rename_i t rest
    split at hs
    · cases hs; exact ⟨past, rfl, h⟩
    · rename_i hne
      split at hs
      · cases hs
        refine ⟨past ++ [.ok t], by simp, ?_⟩
        have := h.more (new := [.ok t]) (g := []) nofun
        rwa [List.append_nil] at this
      · rename_i hl
        cases hs
        exact ⟨past ++ [.ok t], by simp, h.stray (by simpa using hl) (by simpa using hne) rfl⟩
  · rename_i t es' rest
    split at hs
    · cases hs; exact ⟨past, rfl, h⟩
    · rename_i hne
      have h1 := h.more (new := []) (g := es'.map .tokenizer) good_tokenizer
      split at hs
      · cases hs
        exact ⟨past ++ [.recovered t es'], by simp, h.more good_tokenizer⟩
      · rename_i hl
        cases hs
        rw [List.append_nil] at h1
        exact ⟨past ++ [.recovered t es'], by simp, h1.stray (by simpa using hl) (by simpa using hne) rfl⟩
  · rename_i es' rest
    cases hs
    exact ⟨past ++ [.fatal es'], by simp, h.more good_tokenizer⟩
  · cases hs

theorem lateStatement_good {hasLast : Bool} {b : Blk} {es : List Err} (h : lateStatement hasLast b = .ok es) : ∀ e ∈ es, Good e := by
  unfold lateStatement at h
  split at h
  · split at h
    · cases h
      intro e he
      cases List.mem_singleton.1 he
      exact show Proper _ by unfold Proper unexpectedToken; decide
    · cases h
  · cases h; nofun

theorem moreStatements_at {hasLast : Bool} {rs : Toks} {s : St} {st : Step} (h : At rs s) (hs : moreStatements c hasLast s = .ok st) :
    After rs st := by
  obtain ⟨past, hr, h⟩ := h
  unfold moreStatements at hs
  split at hs
  · rename_i r hr1
    obtain ⟨hg, new, hn⟩ := says_topBlock _ _ hr1
    have h1 := h.more (new := new) hg
    have hr2 : rs = past ++ new ++ r.toks := by rw [hr, ← hn, List.append_assoc]
    split at hs
    · split at hs
      · exact skipToken_at ⟨past ++ new, hr2, h1⟩ hs
      · split at hs
        · rename_i es hes
          cases hs
          have h2 := h1.more (new := []) (lateStatement_good hes)
          rw [List.append_nil] at h2
          exact ⟨past ++ new, hr2, h2⟩
        · cases hs
        · cases hs
    · cases hs
      exact ⟨past ++ new, hr2, h1⟩
  · cases hs
  · cases hs

theorem mainStep_at {hasLast : Bool} {rs : Toks} {s : St} {st : Step} (h : At rs s) (hs : mainStep c hasLast s = .ok st) : After rs st := by
  unfold mainStep at hs
  split at hs
  · split at hs
    · cases hs; exact h
    · exact moreStatements_at h hs
  · exact moreStatements_at h hs
  · rename_i es rest hts
    cases hs
    obtain ⟨past, hr, h⟩ := h
    exact ⟨past ++ [.fatal es], by rw [hr, hts, List.append_assoc]; rfl, h.more good_tokenizer⟩
  · cases hs; exact h

theorem mainLoop_at {hasLast : Bool} {rs : Toks} : ∀ {n : Nat} {s s' : St}, At rs s → mainLoop c hasLast n s = .ok s' → At rs s'
  | 0, _, _, _, h => by cases h
  | n + 1, s, s', h, hs => by
    unfold mainLoop at hs
    split at hs
    · rename_i st hst
      cases hs
      exact mainStep_at h hst
    · rename_i st hst
      exact mainLoop_at (mainStep_at h hst) hs
    · cases hs
    · cases hs

theorem parseTokens_sofar {rs : Toks} {r : AstResult} (h : parseTokens c rs = .ok r) :
    Apart r.errors ∧ (∀ e ∈ r.errors, Sound e) ∧ (r.errors.filterMap strayToken).Sublist ((tokensOf rs).map (·.token)) := by
  unfold parseTokens at h
  split at h
  · rename_i r1 hr1
    obtain ⟨hg, new, hn⟩ := says_topBlock _ _ hr1
    have h1 : Sofar new r1.errs := Sofar.nil.more (new := new) hg
    split at h
    · rename_i s hs
      obtain ⟨past, hp, h2⟩ := mainLoop_at (rs := rs) ⟨new, hn.symm, h1⟩ hs
      have h3 : Sofar rs r.errors := by
        unfold finish at h
        split at h
        · split at h
          · cases h
            have := h2.more (new := s.toks) (g := []) nofun
            rwa [← hp, List.append_nil] at this
          · cases h
        · split at h
          · cases h
            have := h2.more (new := s.toks) (g := (‹List TokErr›).map .tokenizer) good_tokenizer
            rwa [← hp] at this
          · cases h
        · cases h
        · cases h
      exact ⟨h3.apart, h3.sound, h3.order⟩
    · cases h
    · cases h
  · cases h
  · cases h

end FM.Proofs.Recovery

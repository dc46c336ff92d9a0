import Verif.Proofs.RespaceRead
import Verif.Proofs.StreamAll
import Verif.Spec.Spacing

/-! Helper lemmas: reading white space and comments. -/

namespace FM
open Spec

variable {c : Cfg} {p : Position}

/-- The text does not start with white space. -/
def Hard : Text → Prop
  | [] => True
  | ch :: _ => ¬ IsBlank ch

theorem opensLong_of {n : Nat} {r : Text} : opensLong (List.replicate n '=' ++ '[' :: r) = true := by
  induction n with
  | zero => rfl
  | succ n ih => exact ih

theorem startsLong_of_opens {b : Text} (h : opensLong b = true) : StartsLong ('[' :: b) := by
  suffices ∃ n, List.replicate n '=' ++ ['['] <+: b by
    obtain ⟨n, r, hr⟩ := this
    exact ⟨n, r, by rw [← hr]; rfl⟩
  induction b with
  | nil => cases h
  | cons x b ih =>
    unfold opensLong at h
    split at h
    · rename_i e
      subst e
      obtain ⟨n, r, hr⟩ := ih h
      exact ⟨n + 1, r, by rw [← hr]; rfl⟩
    · simp only [beq_iff_eq] at h
      subst h
      exact ⟨0, b, rfl⟩

theorem opensLong_append {b r : Text} (h : opensLong (b ++ '\n' :: r) = true) : opensLong b = true := by
  induction b with
  | nil => cases h
  | cons x b ih =>
    simp only [List.cons_append, opensLong] at h ⊢
    split at h
    · rename_i e; rw [if_pos e]; exact ih h
    · rename_i e; rw [if_neg e]; exact h

theorem lineLoop_complete {body r : Text} (h : '\n' ∉ body) (p : Position) (acc : Text) : (lineLoop (body ++ '\n' :: r) p acc).2.rest = '\n' :: r := by
  induction body generalizing p acc with
  | nil => simp [lineLoop]
  | cons x body ih =>
    simp only [List.mem_cons, not_or] at h
    simp only [List.cons_append, lineLoop, if_neg (Ne.symm h.1)]
    exact ih h.2 _ _

theorem replicate_split_line {k : Nat} {s body z : Text} (h : List.replicate k '=' ++ s = body ++ '\n' :: z) :
    ∃ b, body = List.replicate k '=' ++ b ∧ s = b ++ '\n' :: z := by
  induction k generalizing body with
  | zero => exact ⟨body, rfl, h⟩
  | succ k ih =>
    cases body with
    | nil => cases h
    | cons x body =>
      simp only [List.replicate_succ, List.cons_append, List.cons.injEq] at h
      obtain ⟨rfl, h⟩ := h
      obtain ⟨b, rfl, hs⟩ := ih h
      exact ⟨b, rfl, hs⟩

theorem readComment_line {body r : Text} (h : '\n' ∉ body) (hl : ¬ StartsLong body) (p : Position) :
    (readComment ⟨body ++ '\n' :: r, p⟩).2.1 = false ∧ (readComment ⟨body ++ '\n' :: r, p⟩).2.2.rest = '\n' :: r := by
  unfold readComment
  cases body with
  | nil => exact ⟨rfl, lineLoop_complete (body := []) h p []⟩
  | cons x b =>
    by_cases hx : x = '['
    · subst hx
      simp only [Src.consume, Src.current, List.cons_append, List.head?_cons, if_true, Src.advance]
      have ho : opensLong (b ++ '\n' :: r) = false := by
        cases e : opensLong (b ++ '\n' :: r) with
        | false => rfl
        | true => exact absurd (startsLong_of_opens (opensLong_append e)) hl
      obtain ⟨n, hn⟩ := readMultiLineBody_not (s := ⟨b ++ '\n' :: r, p.advance '['⟩) ho
      rcases readMultiLineBody_spec ⟨b ++ '\n' :: r, p.advance '['⟩ with ⟨_, _, e, _⟩ | ⟨_, _, e, _⟩ | ⟨m, e1, e2⟩
      · rw [hn] at e; cases e
      · rw [hn] at e; cases e
      · generalize readMultiLineBody ⟨b ++ '\n' :: r, p.advance '['⟩ = q at *
        obtain ⟨q, s⟩ := q
        simp only at e1 e2
        subst e1
        have := e2.1
        simp only at this
        obtain ⟨b', rfl, hs⟩ := replicate_split_line this.symm
        simp only [hs]
        refine ⟨trivial, lineLoop_complete ?_ _ _⟩
        simp only [List.mem_cons, List.mem_append, not_or] at h
        exact h.2.2
    · simp only [Src.consume, Src.current, List.cons_append, List.head?_cons, Option.some.injEq, if_neg hx]
      exact ⟨trivial, lineLoop_complete (body := x :: b) h p []⟩

theorem readComment_long {n : Nat} {body r : Text} (h : ClosesFirst (closeBracket n) body) (p : Position) :
    (readComment ⟨'[' :: (List.replicate n '=' ++ ['['] ++ body ++ closeBracket n ++ r), p⟩).2.1 = false ∧
    (readComment ⟨'[' :: (List.replicate n '=' ++ ['['] ++ body ++ closeBracket n ++ r), p⟩).2.2.rest = r := by
  unfold readComment
  simp only [Src.consume, Src.current, List.head?_cons, if_true, Src.advance]
  obtain ⟨h1, h2⟩ := readMultiLineBody_complete (rest := r) (p.advance '[') h
  generalize readMultiLineBody _ = q at *
  obtain ⟨q, s⟩ := q
  simp only at h1 h2
  subst h1
  exact ⟨rfl, h2⟩

theorem cStyleLoop_complete {body r : Text} (h : ClosesFirst c!"*/" body) (p : Position) (acc : Text) :
    (cStyleLoop (body ++ c!"*/" ++ r) p acc).2.1 = false ∧ (cStyleLoop (body ++ c!"*/" ++ r) p acc).2.2.rest = r := by
  induction body generalizing p acc with
  | nil =>
    simp only [List.nil_append, List.cons_append, cStyleLoop]
    simp
  | cons x body ih =>
    have h' : ClosesFirst c!"*/" body := by
      intro u v e
      have := h (x :: u) v (by rw [List.cons_append, e]; rfl)
      exact ⟨(List.cons.inj this.1).2, this.2⟩
    have hne : ∃ y z, body ++ c!"*/" ++ r = y :: z ∧ ¬ (x = '*' ∧ y = '/') := by
      cases body with
      | nil => exact ⟨_, _, rfl, by simp⟩
      | cons y body =>
        refine ⟨y, _, rfl, ?_⟩
        rintro ⟨rfl, rfl⟩
        have := h [] (body ++ c!"*/") rfl
        cases this.1
    obtain ⟨y, z, e, hn⟩ := hne
    have := ih h' (p.advance x) (acc ++ [x])
    simp only [List.cons_append]
    rw [e] at this ⊢
    unfold cStyleLoop
    simp only [if_neg hn]
    exact this

theorem filler_tail {s r w f : Text} (hs : Hard s) (hf : Filler c f) (hw : ∀ x ∈ w, IsBlank x) (e : f ++ s = w ++ r) :
    ∃ f', f = w ++ f' ∧ Filler c f' ∧ r = f' ++ s := by
  induction w generalizing f with
  | nil => exact ⟨f, rfl, hf, e.symm⟩
  | cons x w ih =>
    have hx := hw x (.head _)
    have key : ∀ {y : Char} {g : Text}, y :: g = x :: (w ++ r) → IsBlank y := by
      intro y g e
      cases e
      exact hx
    cases hf with
    | nil =>
      cases s with
      | nil => cases e
      | cons y s => exact absurd (key e) hs
    | blank hb hf =>
      simp only [List.cons_append, List.cons.injEq] at e
      obtain ⟨rfl, e⟩ := e
      obtain ⟨f', rfl, h2, h3⟩ := ih hf (fun y hy => hw y (.tail _ hy)) e
      exact ⟨f', rfl, h2, h3⟩
    | line => rcases key e with e | e | e | e <;> cases e
    | long => rcases key e with e | e | e | e <;> cases e
    | cStyle => rcases key e with e | e | e | e <;> cases e

theorem processNext_plain {ch : Char} {r : Text} {b : Bool} {bs : List BraceType} (h : ¬ (ch = '"' ∨ ch = '\'' ∨ ch = '`')) (h1 : ch ≠ '{')
    (h2 : ch ≠ '}') : processNext c ⟨⟨ch :: r, p⟩, b, bs⟩ = .ok (some (readPlain c p ch ⟨r, p.advance ch⟩).1, ⟨(readPlain c p ch ⟨r, p.advance ch⟩).2, b, bs⟩) := by
  unfold processNext
  simp only [if_neg h, if_neg h1, if_neg h2]
  rfl

theorem readPlain_minus (st : Position) (s : Src) : readPlain c st '-' s = readMinus c st s := rfl
theorem readPlain_slash (st : Position) (s : Src) : readPlain c st '/' s = readSlash c st s := rfl

theorem readMinus_comment (st : Position) (r : Text) : readMinus c st ⟨'-' :: r, p⟩ = commentToken st (readComment ⟨r, p.advance '-'⟩) := by
  unfold readMinus readMinusRest
  simp only [Src.consume, Src.current, List.head?_cons, Option.some.injEq, Src.advance, if_true]
  split
  · simp
  · rfl

theorem readSlash_comment (hc : c.has .cfxlua = true) (st : Position) (r : Text) :
    readSlash c st ⟨'*' :: r, p⟩ = commentToken st (.cStyleComment (cStyleLoop r (p.advance '*') []).1, (cStyleLoop r (p.advance '*') []).2.1, (cStyleLoop r (p.advance '*') []).2.2) := by
  have h1 : c.hasAny [.lua53, .luau, .cfxlua] = true := by simp [Cfg.hasAny, hc]
  have h2 : c.hasAny [.luau, .cfxlua] = true := by simp [Cfg.hasAny, hc]
  have h3 : c.hasAny [.cfxlua] = true := by simp [Cfg.hasAny, hc]
  unfold readSlash
  simp only [h1, h2, h3, if_true, Src.consume, Src.current, List.head?_cons, Option.some.injEq, Src.advance]
  rfl

/-- The result of reading one piece of a filler. -/
def FillStep (c : Cfg) (f s : Text) (p : Position) (b : Bool) (bs : List BraceType) : Prop :=
  ∃ t f' p', processNext c ⟨⟨f ++ s, p⟩, b, bs⟩ = .ok (some (.ok t), ⟨⟨f' ++ s, p'⟩, b, bs⟩) ∧ t.type.isTrivia = true ∧ Filler c f' ∧
    f'.length < f.length

theorem FillStep.of {f f' s : Text} {p : Position} {b : Bool} {bs : List BraceType} {ch : Char} {r : Text} (e : f ++ s = ch :: r)
    (h : ¬ (ch = '"' ∨ ch = '\'' ∨ ch = '`')) (h1 : ch ≠ '{') (h2 : ch ≠ '}') {t : Token}
    (ht : (readPlain c p ch ⟨r, p.advance ch⟩).1 = .ok t) (htr : t.type.isTrivia = true)
    (hr : (readPlain c p ch ⟨r, p.advance ch⟩).2.rest = f' ++ s) (hf' : Filler c f') (hlen : f'.length < f.length) : FillStep c f s p b bs := by
  refine ⟨t, f', (readPlain c p ch ⟨r, p.advance ch⟩).2.pos, ?_, htr, hf', hlen⟩
  rw [e, processNext_plain h h1 h2, ht, ← hr]

theorem comment_ok {st : Position} {q : TokenType × Bool × Src} (h : q.2.1 = false) : commentToken st q = create st q.1 q.2.2 := by
  unfold commentToken
  rw [h]
  rfl

theorem filler_step {f s : Text} (hs : Hard s) (hf : Filler c f) (hne : f ≠ []) (p : Position) (b : Bool) (bs : List BraceType) :
    FillStep c f s p b bs := by
  cases hf with
  | nil => exact absurd rfl hne
  | @blank ch f hb hf =>
    by_cases hn : ch = '\n'
    · subst hn
      exact .of (f' := f) rfl (by decide) (by decide) (by decide) rfl rfl rfl hf (Nat.lt_succ_self _)
    · have hch : ch = ' ' ∨ ch = '\t' ∨ ch = '\r' := by
        rcases hb with h | h | h | h
        · exact .inl h
        · exact .inr (.inl h)
        · exact .inr (.inr h)
        · exact absurd h hn
      have hrp : ∀ st s, readPlain c st ch s = readWhitespace st ch s := by
        intro st s
        rcases hch with rfl | rfl | rfl <;> rfl
      have hadv : (⟨p.bytes + ch.utf8Size, p.line, p.character + 1⟩ : Position) = p.advance ch := by simp [Position.advance, hn]
      obtain ⟨w, h1, h2, _, h3, _⟩ := wsLoop_spec (f ++ s) (p.advance ch) [ch] ⟨p.bytes + ch.utf8Size, p.line, p.character + 1⟩ p (by simp)
        (by simpa using hb) (by simpa using fun e => hn e.symm) (by simp) hadv
      obtain ⟨f', hf1, hf2, hf3⟩ := filler_tail (w := w) hs hf (fun x hx => h3 x (List.mem_append_right _ hx)) h2.1
      refine .of (f' := f') rfl (by rcases hch with rfl | rfl | rfl <;> decide) (by rcases hch with rfl | rfl | rfl <;> decide)
        (by rcases hch with rfl | rfl | rfl <;> decide) (t := ?_) ?_ ?_ ?_ hf2 (by rw [hf1]; simp; omega)
      rotate_left
      · rw [hrp]; rfl
      · rfl
      · rw [hrp]; exact hf3
  | @line body f h hl hf =>
    obtain ⟨h1, h2⟩ := readComment_line (r := f ++ s) h hl ((p.advance '-').advance '-')
    refine .of (ch := '-') (r := '-' :: (body ++ '\n' :: (f ++ s))) (f' := '\n' :: f) (by simp) (by decide) (by decide) (by decide)
      (t := ?_) ?_ ?_ ?_ (.blank (.inr (.inr (.inr rfl))) hf) (by simp; omega)
    rotate_left
    · rw [readPlain_minus, readMinus_comment, comment_ok h1]
      rfl
    · exact readComment_trivia _
    · rw [readPlain_minus, readMinus_comment, comment_ok h1]
      exact h2
  | @long n body f h hf =>
    obtain ⟨h1, h2⟩ := readComment_long (r := f ++ s) h ((p.advance '-').advance '-')
    refine .of (ch := '-') (r := '-' :: '[' :: (List.replicate n '=' ++ ['['] ++ body ++ closeBracket n ++ (f ++ s))) (f' := f) (by simp) (by decide) (by decide) (by decide)
      (t := ?_) ?_ ?_ ?_ hf (by simp; omega)
    rotate_left
    · rw [readPlain_minus, readMinus_comment, comment_ok h1]
      rfl
    · exact readComment_trivia _
    · rw [readPlain_minus, readMinus_comment, comment_ok h1]
      exact h2
  | @cStyle body f hc h hf =>
    obtain ⟨h1, h2⟩ := cStyleLoop_complete (r := f ++ s) h ((p.advance '/').advance '*') []
    refine .of (ch := '/') (r := '*' :: (body ++ c!"*/" ++ (f ++ s))) (f' := f) (by simp) (by decide) (by decide) (by decide)
      (t := ?_) ?_ ?_ ?_ hf (by simp; omega)
    rotate_left
    · rw [readPlain_slash, readSlash_comment hc, comment_ok h1]
      rfl
    · rfl
    · rw [readPlain_slash, readSlash_comment hc, comment_ok h1]
      exact h2

end FM

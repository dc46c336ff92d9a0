import Verif.Proofs.StreamAll

/-! Helper lemmas: consequences of the stream specification. -/

namespace FM
open Spec

theorem or_and_ne_zero (x y m : BitVec 8) :
    ((x ||| y) &&& m ≠ 0#8) ↔ (x &&& m ≠ 0#8 ∨ y &&& m ≠ 0#8) := by
  have h0 : ∀ p q : BitVec 8, p ||| q = 0#8 ↔ p = 0#8 ∧ q = 0#8 := by
    intro p q
    constructor
    · intro h
      constructor
      · apply BitVec.eq_of_getElem_eq
        intro i hi
        have := congrArg (fun z : BitVec 8 => z.getLsbD i) h
        simp at this
        simp [← BitVec.getLsbD_eq_getElem, this]
      · apply BitVec.eq_of_getElem_eq
        intro i hi
        have := congrArg (fun z : BitVec 8 => z.getLsbD i) h
        simp at this
        simp [← BitVec.getLsbD_eq_getElem, this]
    · rintro ⟨rfl, rfl⟩; rfl
  have h1 : (x ||| y) &&& m = (x &&& m) ||| (y &&& m) := by
    apply BitVec.eq_of_getElem_eq; intro i hi; simp [Bool.and_or_distrib_right]
  rw [h1]
  rw [ne_eq, h0]
  by_cases p : x &&& m = 0#8 <;> by_cases q : y &&& m = 0#8 <;> simp [p, q]

theorem api_bits {f : Features} {a : LuaVersion} (h : a.Api f) :
    (a.bitfield &&& 8#8 ≠ 0#8 → a.bitfield &&& 4#8 ≠ 0#8) ∧ (a.bitfield &&& 4#8 ≠ 0#8 → a.bitfield &&& 2#8 ≠ 0#8) ∧
    (a.bitfield &&& 32#8 ≠ 0#8 → a.bitfield &&& 8#8 ≠ 0#8) := by
  have comb : ∀ x y : BitVec 8,
      ((x &&& 8#8 ≠ 0#8 → x &&& 4#8 ≠ 0#8) ∧ (x &&& 4#8 ≠ 0#8 → x &&& 2#8 ≠ 0#8) ∧
        (x &&& 32#8 ≠ 0#8 → x &&& 8#8 ≠ 0#8)) →
      ((y &&& 8#8 ≠ 0#8 → y &&& 4#8 ≠ 0#8) ∧ (y &&& 4#8 ≠ 0#8 → y &&& 2#8 ≠ 0#8) ∧
        (y &&& 32#8 ≠ 0#8 → y &&& 8#8 ≠ 0#8)) →
      (((x ||| y) &&& 8#8 ≠ 0#8 → (x ||| y) &&& 4#8 ≠ 0#8) ∧ ((x ||| y) &&& 4#8 ≠ 0#8 → (x ||| y) &&& 2#8 ≠ 0#8) ∧
        ((x ||| y) &&& 32#8 ≠ 0#8 → (x ||| y) &&& 8#8 ≠ 0#8)) := by
    intro x y hx hy
    simp only [or_and_ne_zero]
    exact ⟨fun h => h.imp hx.1 hy.1, fun h => h.imp hx.2.1 hy.2.1, fun h => h.imp hx.2.2 hy.2.2⟩
  induction h with
  | lua51 => decide
  | default => decide
  | only v _ => cases v <;> decide
  | withVer v _ _ ih =>
    cases v <;> exact comb _ _ ih (by decide)
  | or _ _ ih1 ih2 => exact comb _ _ ih1 ih2

theorem has_iff {c : Cfg} {v : Ver} : c.has v = true ↔ c.feat.has v = true ∧ c.ver.bitfield &&& v.bit ≠ 0#8 := by
  simp [Cfg.has, LuaVersion.has]

theorem Cfg.Reachable.lua53_of_cfxlua {c : Cfg} (h : c.Reachable) : c.cfxlua = true → c.lua53 = true := by
  simp only [Cfg.cfxlua, Cfg.lua53, has_iff]
  obtain ⟨h1, _, h3⟩ := api_bits h.2
  intro ⟨a, b⟩
  exact ⟨h.1.2.1 (h.1.2.2 a), h1 (h3 b)⟩

theorem Cfg.Reachable.good {c : Cfg} (h : c.Reachable) : c.Good := h.lua53_of_cfxlua

theorem Run.mem {c : Cfg} {src pre : Text} {l : Lx} {rs : List (LexRes TokRef)} (h : Run c src pre l rs)
    (hat : At src pre l.src) {r : LexRes TokRef} (hr : r ∈ rs) :
    ∃ before w l0 l1, RefSpec c src before w l0 (some r) l1 ∧ At src before l0.src ∧ At src (before ++ w) l1.src := by
  induction h with
  | stop => simp at hr
  | next h1 h2 _ ih =>
    rcases List.mem_cons.1 hr with rfl | hr
    · exact ⟨_, _, _, _, h1, hat, h2⟩
    · exact ih h2 hr

theorem errorsOf_cons {α : Type} (r : LexRes α) (rs : List (LexRes α)) :
    errorsOf (r :: rs) = errorsOf [r] ++ errorsOf rs := by
  simp [errorsOf]

/-- In an error-free run the tokens tile the rest of the source. -/
theorem Run.noErr {c : Cfg} {src pre : Text} {l : Lx} {rs : List (LexRes TokRef)} (h : Run c src pre l rs)
    (hat : At src pre l.src) (he : errorsOf rs = []) :
    l.src.rest = (tokensOf rs).flatMap TokRef.display ∧ Placed c pre (flatTokens rs) [] := by
  induction h with
  | stop _ h => exact ⟨h, trivial⟩
  | @next pre w l r l' rs h1 h2 _ ih =>
    rw [errorsOf_cons, List.append_eq_nil_iff] at he
    obtain ⟨i1, i2⟩ := ih h2 he.2
    obtain ⟨hr, _, hspec⟩ := h1
    cases r with
    | fatal es => exact absurd (by simpa [errorsOf] using he.1) hspec.1
    | recovered t es => exact absurd (by simpa [errorsOf] using he.1) hspec.2.1
    | ok t =>
      obtain ⟨_, g2, g3, _⟩ := hspec
      have hfl : text t.flat = w := by
        rw [g2]; simp [text, TokRef.flat, TokRef.display]
      refine ⟨by rw [hr.1, i1, g2]; simp [tokensOf], ?_⟩
      have : flatTokens (.ok t :: rs) = t.flat ++ flatTokens rs := by simp [flatTokens, tokensOf]
      rw [this, placed_append]
      have hrest : text (flatTokens rs) = l'.src.rest := by
        rw [i1]
        simp only [flatTokens, text, List.flatMap_assoc]
        congr 1
        funext t
        simp [TokRef.flat, TokRef.display]
      refine ⟨by rw [List.append_nil, hrest]; exact g3, by rw [hfl]; exact i2⟩

/-- Nothing follows Eof. -/
theorem Run.ended {c : Cfg} {src pre : Text} {l : Lx} {rs : List (LexRes TokRef)} (hrun : Run c src pre l rs)
    (hse : l.sentEof = true) (hinv : l.sentEof = true → l.src.rest = []) : rs = [] := by
  cases hrun with
  | stop => rfl
  | @next _ w'' _ r'' _ _ h1 _ _ =>
    exfalso
    obtain ⟨hr', _, hspec'⟩ := h1
    cases r'' with
    | ok t => rw [hspec'.1] at hse; simp at hse
    | recovered t es => rw [hspec'.1] at hse; simp at hse
    | fatal es =>
      have hl := hr'.length
      rw [hinv hse] at hl
      have := List.length_pos_iff.2 hspec'.2.2.2
      simp at hl; omega

/-- The Eof token of a run. -/
theorem Run.eof {c : Cfg} {src pre : Text} {l : Lx} {rs : List (LexRes TokRef)} (h : Run c src pre l rs)
    (hs : l.sentEof = false) :
    ∃ init t, tokensOf rs = init ++ [t] ∧ t.token.type = .eof ∧ t.trailing = [] ∧
      (∀ u ∈ init, u.token.type ≠ .eof) ∧
      (∃ r, rs.getLast? = some r ∧ (r = .ok t ∨ ∃ es, r = .recovered t es)) := by
  induction h with
  | stop h => rw [hs] at h; simp at h
  | @next pre w l r l' rs h1 h2 hrun ih =>
    obtain ⟨hr, hinv, hspec⟩ := h1
    have last : ∀ t : TokRef, (r = .ok t ∨ ∃ es, r = .recovered t es) →
        t.token.type = .eof → l'.sentEof = true ∧ t.trailing = [] →
        ∃ init t, tokensOf (r :: rs) = init ++ [t] ∧ t.token.type = .eof ∧ t.trailing = [] ∧
          (∀ u ∈ init, u.token.type ≠ .eof) ∧
          (∃ r', (r :: rs).getLast? = some r' ∧ (r' = .ok t ∨ ∃ es, r' = .recovered t es)) := by
      intro t hrt ht ⟨hse, htr⟩
      have hnil : rs = [] := by
        cases hrun with
        | stop => rfl
        | @next _ w'' _ r'' _ _ h1 _ _ =>
          exfalso
          obtain ⟨hr', _, hspec'⟩ := h1
          cases r'' with
          | ok t => rw [hspec'.1] at hse; simp at hse
          | recovered t es => rw [hspec'.1] at hse; simp at hse
          | fatal es =>
            have hl := hr'.length
            rw [hinv hse] at hl
            have := List.length_pos_iff.2 hspec'.2.2.2
            simp at hl; omega
      subst hnil
      refine ⟨[], t, ?_, ht, htr, by simp, r, by simp, hrt⟩
      rcases hrt with rfl | ⟨es, rfl⟩ <;> rfl
    have more : l'.sentEof = false → (∀ t ∈ tokensOf [r], t.token.type ≠ .eof) →
        ∃ init t, tokensOf (r :: rs) = init ++ [t] ∧ t.token.type = .eof ∧ t.trailing = [] ∧
          (∀ u ∈ init, u.token.type ≠ .eof) ∧
          (∃ r', (r :: rs).getLast? = some r' ∧ (r' = .ok t ∨ ∃ es, r' = .recovered t es)) := by
      intro hse hne
      obtain ⟨init, t, i1, i2, i3, i4, r', i5, i6⟩ := ih hse
      refine ⟨tokensOf [r] ++ init, t, ?_, i2, i3, ?_, r', ?_, i6⟩
      · have : tokensOf (r :: rs) = tokensOf [r] ++ tokensOf rs := by
          rw [tokensOf, tokensOf, tokensOf, ← List.filterMap_append]; rfl
        rw [this, i1, List.append_assoc]
      · intro u hu
        rcases List.mem_append.1 hu with hu | hu
        · exact hne u hu
        · exact i4 u hu
      · rw [List.getLast?_cons, i5]; rfl
    cases r with
    | fatal es => exact more (by rw [hspec.2.2.1]; exact hs) (by simp [tokensOf])
    | ok t =>
      obtain ⟨_, _, _, _, _, _, g1, g2⟩ := hspec
      by_cases ht : t.token.type = .eof
      · exact last t (.inl rfl) ht (g1 ht)
      · exact more (g2 ht).1 (by simpa [tokensOf] using ht)
    | recovered t es =>
      obtain ⟨_, _, _, _, _, _, _, _, g1, g2⟩ := hspec
      by_cases ht : t.token.type = .eof
      · exact last t (.inr ⟨es, rfl⟩) ht (g1 ht)
      · exact more (g2 ht).1 (by simpa [tokensOf] using ht)

theorem mem_tokensOf {rs : List (LexRes TokRef)} {t : TokRef} :
    t ∈ tokensOf rs ↔ .ok t ∈ rs ∨ ∃ es, .recovered t es ∈ rs := by
  simp only [tokensOf, List.mem_filterMap]
  constructor
  · rintro ⟨r, hr, h⟩
    split at h <;> simp at h
    · subst h; exact .inl hr
    · subst h; exact .inr ⟨_, hr⟩
  · rintro (h | ⟨es, h⟩)
    · exact ⟨_, h, rfl⟩
    · exact ⟨_, h, rfl⟩

theorem lexAll_run {c : Cfg} (hc : c.Good) {src : Text} {rs : List (LexRes TokRef)} (h : lexAll c src = .ok rs) :
    ∃ pre l, At src pre l.src ∧ Run c src pre l rs ∧ rs.length ≤ src.length + 1 ∧
      (ShebangKept src rs → pre = [] ∧ l.sentEof = false) := by
  have hat0 := At.new src
  rcases lexAll_spec hc (src := src) with ⟨hp, _⟩ | ⟨rs', h', hlen, hrun⟩
  · rw [hp] at h; simp at h
  · rw [h'] at h
    simp only [Outcome.ok.injEq] at h
    subst h
    rcases hrun with ⟨hrun, _⟩ | ⟨hsh, pre, l, hpre, hat, -, hrun⟩
    · exact ⟨[], _, hat0, hrun, hlen, fun _ => ⟨rfl, rfl⟩⟩
    · refine ⟨pre, l, hat, hrun, hlen, fun hk => ?_⟩
      exfalso
      obtain ⟨t, rest, line, ts, rfl, h2, h3, _⟩ := hk hsh
      cases hrun with
      | next h1 _ _ =>
        obtain ⟨_, _, _, _, hpl, _⟩ := h1
        rw [TokRef.flat, h2] at hpl
        have := hpl.1
        rw [this] at h3
        simp only [position, utf8Len] at h3
        cases pre with
        | nil => exact hpre rfl
        | cons ch pre =>
          simp only [List.map_cons, List.sum_cons] at h3
          have := Char.utf8Size_pos ch
          omega

/-- A stream is empty, which takes a dropped `#!` line, or ends with its only Eof token. -/
theorem lexAll_eof {c : Cfg} (hc : c.Good) {src : Text} {rs : List (LexRes TokRef)} (h : lexAll c src = .ok rs) :
    rs = [] ∧ HasShebang src ∨ ∃ init t, tokensOf rs = init ++ [t] ∧ t.token.type = .eof ∧ t.trailing = [] ∧
      (∀ u ∈ init, u.token.type ≠ .eof) ∧
      (∃ r, rs.getLast? = some r ∧ (r = .ok t ∨ ∃ es, r = .recovered t es)) := by
  rcases lexAll_spec hc (src := src) with ⟨hp, _⟩ | ⟨rs', h', hlen, hrun⟩
  · rw [hp] at h; simp at h
  · rw [h'] at h
    simp only [Outcome.ok.injEq] at h
    subst h
    rcases hrun with ⟨hrun, _⟩ | ⟨hsh, pre, l, hpre, hat, hinv, hrun⟩
    · exact .inr (hrun.eof rfl)
    · cases hse : l.sentEof with
      | true => exact .inl ⟨hrun.ended hse hinv, hsh⟩
      | false => exact .inr (hrun.eof hse)

end FM

import Verif.Proofs.Ast.HooksSame

/-!
# `visit_contained_span` is never called
-/

namespace FM
open Spec

variable {R₀ : TokRef → Prop}

/-- The hook `visit_contained_span` or its `_end`. -/
def onSpan : Ev → Bool
  | .enterSpan | .leaveSpan => true
  | _ => false

/-- `ContainedSpan` does not occur in a type outside node types. -/
def Ty.noSpan : Ty → Bool
  | .span => false
  | .tok | .cat _ => true
  | .opt a | .vec a | .punct a | .pair a => a.noSpan
  | .tup a b => a.noSpan && b.noSpan

/-- Vectors of such. -/
def Ty.spanFreeItems : Ty → Bool
  | .vec a => a.noSpan
  | _ => false

/-- Punctuated sequences of such. -/
def Ty.spanFreePairs : Ty → Bool
  | .punct a => a.noSpan
  | _ => false

/-- A step of a layout that does not visit a `ContainedSpan` as a whole. -/
def Slot.spanFree (sig : List Ty) : Slot → Bool
  | .child i => (sig[i]?).all Ty.noSpan
  | .opening i | .closing i => sig[i]? == some .span
  | .names n a b | .bareNames n a b =>
    (sig[n]?).all Ty.spanFreePairs && (a.all fun i => (sig[i]?).all Ty.spanFreeItems) && (sig[b]?).all Ty.spanFreeItems

def Kind.spanFree (k : Kind) : Bool :=
  match k.visitLayout with
  | some l => l.all (Slot.spanFree k.sig)
  | none => k.sig.all Ty.noSpan

theorem Kind.spanFree_all (k : Kind) : k.spanFree = true := by cases k <;> rfl

theorem noSpan_child {n : Node} {a : Ty} (h : HasTy R₀ a n) (ha : a.noSpan = true) (hc : ∀ c, a ≠ .cat c) :
    ∀ d ∈ n.children, ∃ b, HasTy R₀ b d ∧ b.noSpan = true := by
  cases a with
  | tok => obtain ⟨t, _, rfl⟩ := hasTy_tok.1 h; simp
  | span => cases ha
  | cat c => exact absurd rfl (hc c)
  | opt a =>
    rcases hasTy_opt.1 h with rfl | ⟨c, hc, rfl⟩
    · simp
    · intro d hd; cases List.mem_singleton.1 hd; exact ⟨a, hc, ha⟩
  | vec a => obtain ⟨cs, hc, rfl⟩ := hasTy_vec.1 h; exact fun d hd => ⟨a, hc d hd, ha⟩
  | punct a => obtain ⟨cs, hc, rfl⟩ := hasTy_punct.1 h; exact fun d hd => ⟨.pair a, hc d hd, ha⟩
  | pair a =>
    rcases hasTy_pair.1 h with ⟨c, hc, rfl⟩ | ⟨c, t, hc, ht, rfl⟩
    · intro d hd; cases List.mem_singleton.1 hd; exact ⟨a, hc, ha⟩
    · intro d hd
      simp at hd
      rcases hd with rfl | rfl
      · exact ⟨a, hc, ha⟩
      · exact ⟨.tok, hasTy_tok.2 ⟨t, ht, rfl⟩, rfl⟩
  | tup a b =>
    obtain ⟨x, y, hx, hy, rfl⟩ := hasTy_tup.1 h
    simp [Ty.noSpan] at ha
    intro d hd
    simp at hd
    rcases hd with rfl | rfl
    · exact ⟨a, hx, ha.1⟩
    · exact ⟨b, hy, ha.2⟩

theorem hasTys_get {as : List Ty} {cs : List Node} (h : HasTys R₀ as cs) : ∀ {i : Nat} {c : Node}, cs[i]? = some c →
    ∃ a, as[i]? = some a ∧ HasTy R₀ a c := by
  induction as generalizing cs with
  | nil => intro i c hc; simp_all
  | cons a as ih =>
    obtain ⟨d, ds, hd, hds, rfl⟩ := hasTys_cons.1 h
    intro i c hc
    cases i with
    | zero => simp at hc; subst hc; exact ⟨a, rfl, hd⟩
    | succ i => exact ih hds (by simpa using hc)

theorem mem_nth {β : Type} {g : Node → List β} : ∀ {cs : List Node} {i : Nat},
    (cs[i]? = none ∧ R.nth (cs.map (R.of g)) i = R.empty) ∨ ∃ c, cs[i]? = some c ∧ R.nth (cs.map (R.of g)) i = R.of g c
  | [], i => .inl ⟨rfl, rfl⟩
  | c :: cs, 0 => .inr ⟨c, rfl, rfl⟩
  | c :: cs, i + 1 => by
    rcases mem_nth (g := g) (cs := cs) (i := i) with h | h
    · exact .inl (by simpa only [List.getElem?_cons_succ, List.map_cons, R.nth] using h)
    · exact .inr (by simpa only [List.getElem?_cons_succ, List.map_cons, R.nth] using h)

theorem ev_of_part {β : Type} {e : β} : ∀ (ps : List (List β)) (i : Nat), e ∈ part ps i → ∃ p ∈ ps, e ∈ p := by
  intro ps
  induction ps with
  | nil => intro i h; simp [part] at h
  | cons p ps ih =>
    intro i h
    cases i with
    | zero => exact ⟨p, List.mem_cons_self, h⟩
    | succ i =>
      obtain ⟨q, hq, he⟩ := ih i h
      exact ⟨q, List.mem_cons_of_mem _ hq, he⟩

theorem ev_of_joinNames {β : Type} {e : β} {b : Bool} : ∀ {ps : List (List (List β))} {as bs : List (List β)},
    e ∈ joinNames b ps as bs → (∃ p ∈ ps, ∃ x ∈ p, e ∈ x) ∨ (∃ x ∈ as, e ∈ x) ∨ ∃ x ∈ bs, e ∈ x
  | [], _, _, h => by simp [joinNames] at h
  | p :: ps, as, bs, h => by
    simp only [joinNames, List.mem_append] at h
    have self := fun {x} (hx : x ∈ p ∧ e ∈ x) => (Or.inl ⟨p, List.mem_cons_self, x, hx.1, hx.2⟩ :
      (∃ q ∈ p :: ps, ∃ x ∈ q, e ∈ x) ∨ (∃ x ∈ as, e ∈ x) ∨ ∃ x ∈ bs, e ∈ x)
    rcases h with (((h | h) | h) | h) | h
    · obtain ⟨x, hx, he⟩ := ev_of_part _ _ h; exact self ⟨hx, he⟩
    · exact .inr (.inl (ev_of_part _ _ h))
    · exact .inr (.inr (ev_of_part _ _ h))
    · split at h
      · obtain ⟨x, hx, he⟩ := ev_of_part _ _ h; exact self ⟨hx, he⟩
      · cases h
    · rcases ev_of_joinNames h with ⟨q, hq, h⟩ | ⟨x, hx, he⟩ | ⟨x, hx, he⟩
      · exact .inl ⟨q, List.mem_cons_of_mem _ hq, h⟩
      · exact .inr (.inl ⟨x, List.mem_of_mem_tail hx, he⟩)
      · exact .inr (.inr ⟨x, List.mem_of_mem_tail hx, he⟩)

theorem onSpan_token (t : TokRef) : ∀ e ∈ t.visit, onSpan e = false := by
  intro e he
  have h : e ∉ nodeCalls t.visit := by rw [nodeCalls_token]; simp
  have : onNode e = false := by
    cases h' : onNode e with
    | false => rfl
    | true => exact absurd (List.mem_filter.2 ⟨he, h'⟩) h
  cases e <;> first | rfl | simp [onNode] at this

theorem span_free (n : Node) : ∀ a, HasTy R₀ a n → a.noSpan = true → ∀ e ∈ n.visit, onSpan e = false := by
  induction n using Node.induct3 with
  | ht t => intro _ _ _; exact onSpan_token t
  | hn k cs ih ih2 ih3 =>
    intro a hty ha e he
    -- a container passes its type on
    by_cases hcat : ∃ c, a = .cat c
    · obtain ⟨c, rfl⟩ := hcat
      obtain ⟨k', cs', hk, hsig, h⟩ := hasTy_cat.1 hty
      cases h
      have hook : ∀ x ∈ (k.hook.map Prod.fst).toList ++ (k.hook.map Prod.snd).toList, onSpan x = false := by
        rcases k.hook_cat with rfl | hh
        · cases hk
        · rw [hh, hk]
          intro x hx
          cases hh : hasHooks c <;> simp [hh] at hx
          rcases hx with rfl | rfl <;> rfl
      rw [Node.visit_node, Kind.visit_around] at he
      simp only [List.mem_append] at he hook
      rcases he with (he | he) | he
      · exact hook _ (.inl he)
      rotate_left
      · exact hook _ (.inr he)
      have hfree := k.spanFree_all
      unfold Kind.spanFree at hfree
      have all : ∀ {i : Nat} {c : Node}, cs[i]? = some c → (k.sig[i]?).all Ty.noSpan = true → ∃ b, HasTy R₀ b c ∧ b.noSpan = true := by
        intro i c hc hs
        obtain ⟨b, hb, hbc⟩ := hasTys_get hsig hc
        rw [hb] at hs
        exact ⟨b, hbc, by simpa using hs⟩
      have mem : ∀ {i : Nat} {c : Node}, cs[i]? = some c → c ∈ cs := fun h => List.mem_of_getElem? h
      cases hl : k.visitLayout with
      | none =>
        rw [hl] at he hfree
        simp only [arrange, concat_of, List.mem_flatMap] at he
        obtain ⟨c, hc, he⟩ := he
        obtain ⟨i, hi⟩ := List.getElem?_of_mem hc
        obtain ⟨b, hb, hbc⟩ := hasTys_get hsig hi
        exact ih c hc b hbc (List.all_eq_true.1 hfree _ (List.mem_of_getElem? hb)) e he
      | some l =>
        rw [hl] at he hfree
        simp only [arrange, List.mem_flatMap] at he
        obtain ⟨s, hs, he⟩ := he
        have hs := List.all_eq_true.1 hfree s hs
        have bracket : ∀ {i j : Nat}, (k.sig[i]? == some Ty.span) = true →
            e ∈ part (R.nth (cs.map (R.of Node.visit)) i).parts j → onSpan e = false := by
          intro i j h1 h2
          rcases mem_nth (g := Node.visit) (cs := cs) (i := i) with ⟨_, h⟩ | ⟨c, hc, h⟩
          · rw [h] at h2; simp [R.empty, part] at h2
          · rw [h] at h2
            obtain ⟨p, hp, he⟩ := ev_of_part _ _ h2
            obtain ⟨b, hb, hbc⟩ := hasTys_get hsig hc
            rw [hb] at h1
            have : b = .span := by simpa using h1
            subst this
            obtain ⟨o, c', _, _, rfl⟩ := hasTy_span.1 hbc
            simp [R.of] at hp
            rcases hp with rfl | rfl
            · exact onSpan_token _ e he
            · exact onSpan_token _ e he
        have items : ∀ {i : Nat}, (k.sig[i]?).all Ty.spanFreeItems = true →
            (∃ x ∈ (R.nth (cs.map (R.of Node.visit)) i).parts, e ∈ x) → onSpan e = false := by
          rintro i h1 ⟨x, hx, he⟩
          rcases mem_nth (g := Node.visit) (cs := cs) (i := i) with ⟨_, h⟩ | ⟨c, hc, h⟩
          · rw [h] at hx; simp [R.empty] at hx
          · rw [h] at hx
            obtain ⟨d, hd, rfl⟩ := List.mem_map.1 hx
            obtain ⟨b, hb, hbc⟩ := hasTys_get hsig hc
            rw [hb] at h1
            cases b with
            | vec a =>
              obtain ⟨ds, hds, rfl⟩ := hasTy_vec.1 hbc
              exact ih2 _ (mem hc) d hd a (hds d hd) (by simpa [Ty.spanFreeItems] using h1) e he
            | _ => cases h1
        have pairs : ∀ {i : Nat}, (k.sig[i]?).all Ty.spanFreePairs = true →
            (∃ p ∈ (R.nth (cs.map (R.of Node.visit)) i).parts2, ∃ x ∈ p, e ∈ x) → onSpan e = false := by
          rintro i h1 ⟨p, hp, x, hx, he⟩
          rcases mem_nth (g := Node.visit) (cs := cs) (i := i) with ⟨_, h⟩ | ⟨c, hc, h⟩
          · rw [h] at hp; simp [R.empty] at hp
          · rw [h] at hp
            obtain ⟨d, hd, rfl⟩ := List.mem_map.1 hp
            obtain ⟨w, hw, rfl⟩ := List.mem_map.1 hx
            obtain ⟨b, hb, hbc⟩ := hasTys_get hsig hc
            rw [hb] at h1
            cases b with
            | punct a =>
              obtain ⟨ds, hds, rfl⟩ := hasTy_punct.1 hbc
              have ha : (Ty.pair a).noSpan = true := by simpa [Ty.spanFreePairs, Ty.noSpan] using h1
              obtain ⟨b', hb', hn⟩ := noSpan_child (hds d hd) ha (fun c h => by cases h) w hw
              exact ih3 _ (mem hc) d hd w hw b' hb' hn e he
            | _ => cases h1
        cases s with
        | child i =>
          simp only [Slot.run] at he
          rcases mem_nth (g := Node.visit) (cs := cs) (i := i) with ⟨_, h⟩ | ⟨c, hc, h⟩
          · rw [h] at he; simp [R.empty] at he
          · rw [h] at he
            obtain ⟨b, hbc, hb⟩ := all hc hs
            exact ih c (mem hc) b hbc hb e he
        | opening i => exact bracket hs he
        | closing i => exact bracket hs he
        | names n a b | bareNames n a b =>
          simp only [Slot.spanFree, Bool.and_eq_true] at hs
          rcases ev_of_joinNames he with h | h | h
          · exact pairs hs.1.1 h
          · cases a with
            | none => simp [R.elems] at h
            | some i => exact items hs.1.2 h
          · exact items hs.2 h
    · have hch := noSpan_child hty ha fun c h => hcat ⟨c, h⟩
      have hk : k.hook = none ∧ k.visitLayout = none := by
        cases a with
        | tok => obtain ⟨t, _, h⟩ := hasTy_tok.1 hty; cases h
        | span => cases ha
        | cat c => exact absurd ⟨c, rfl⟩ hcat
        | opt a => rcases hasTy_opt.1 hty with h | ⟨c, _, h⟩ <;> cases h <;> exact ⟨rfl, rfl⟩
        | vec a => obtain ⟨_, _, h⟩ := hasTy_vec.1 hty; cases h; exact ⟨rfl, rfl⟩
        | punct a => obtain ⟨_, _, h⟩ := hasTy_punct.1 hty; cases h; exact ⟨rfl, rfl⟩
        | pair a => rcases hasTy_pair.1 hty with ⟨_, _, h⟩ | ⟨_, _, _, _, h⟩ <;> cases h <;> exact ⟨rfl, rfl⟩
        | tup a b => obtain ⟨_, _, _, _, h⟩ := hasTy_tup.1 hty; cases h; exact ⟨rfl, rfl⟩
      rw [Node.visit_node, Kind.visit_around, hk.1, hk.2] at he
      simp [arrange, concat_of] at he
      obtain ⟨c, hc, he⟩ := he
      obtain ⟨b, hb, hn⟩ := hch c hc
      exact ih c hc b hb hn e he

end FM

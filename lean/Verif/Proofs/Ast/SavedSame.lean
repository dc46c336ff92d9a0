import Verif.Proofs.Ast.Saved
import Verif.Proofs.Ast.View

/-!
# What the stored form of a tree determines
-/

namespace FM
open FM.Spec

/-! ## Tokens -/

theorem Quote.save_inj {a b : Quote} (h : a.serdeName = b.serdeName) : a = b := by
  have := Quote.load_save a
  rw [h, Quote.load_save] at this
  exact (Option.some.inj this).symm

theorem InterpKind.save_inj {a b : InterpKind} (h : a.serdeName = b.serdeName) : a = b := by
  have := InterpKind.load_save a
  rw [h, InterpKind.load_save] at this
  exact (Option.some.inj this).symm

theorem TokenType.save_inj {a b : TokenType} (h : a.save = b.save) : a = b := by
  by_cases ha : a.keeps = true
  · have h1 := TokenType.load_save a
    rw [if_pos ha, h, TokenType.load_save] at h1
    split at h1
    · exact (Option.some.inj h1).symm
    · cases h1
  · by_cases hb : b.keeps = true
    · have h1 := TokenType.load_save b
      rw [if_pos hb, ← h, TokenType.load_save, if_neg ha] at h1
      cases h1
    · cases a <;> first | exact (ha rfl).elim | skip
      cases b <;> first | exact (hb rfl).elim | skip
      rename_i l d q l' d' q'
      have hd : d = 0 := by simpa [TokenType.keeps] using ha
      have hd' : d' = 0 := by simpa [TokenType.keeps] using hb
      subst hd hd'
      simp [TokenType.save] at h
      rw [h.1, Quote.save_inj h.2]

theorem Position.save_inj {a b : Position} (h : a.save = b.save) : a = b := by
  have := Position.load_save a
  rw [h, Position.load_save] at this
  exact (Option.some.inj this).symm

theorem Token.save_inj {a b : Token} (h : a.save = b.save) : a = b := by
  cases a; cases b
  simp [Token.save] at h
  rw [Position.save_inj h.1, Position.save_inj h.2.1, TokenType.save_inj h.2.2]

theorem Token.saves_inj : ∀ {as bs : List Token}, as.map Token.save = bs.map Token.save → as = bs
  | [], [], _ => rfl
  | [], _ :: _, h => by cases h
  | _ :: _, [], h => by cases h
  | a :: as, b :: bs, h => by
    simp only [List.map_cons, List.cons.injEq] at h
    rw [Token.save_inj h.1, Token.saves_inj h.2]

theorem TokRef.save_inj {a b : TokRef} (h : a.save = b.save) : a = b := by
  cases a; cases b
  simp [TokRef.save] at h
  rw [Token.saves_inj h.1, Token.save_inj h.2.1, Token.saves_inj h.2.2]

/-! ## Trees without lists of annotations that have no annotation -/

mutual
/-- Lists in which everything is `None` become empty. -/
def Node.trim : Node → Node
  | .tok t => .tok t
  | .node k cs => .node k (if k = .vec ∧ cs.all Node.isAbsent then [] else Node.trims cs)
def Node.trims : List Node → List Node
  | [] => []
  | c :: cs => c.trim :: Node.trims cs
end

theorem trims_eq : ∀ cs : List Node, Node.trims cs = cs.map Node.trim
  | [] => rfl
  | c :: cs => by rw [Node.trims, trims_eq cs]; rfl

theorem trim_node {k : Kind} (h : k ≠ .vec) (cs : List Node) : (Node.node k cs).trim = .node k (cs.map Node.trim) := by
  rw [Node.trim, if_neg (fun h' => h h'.1), trims_eq]

theorem trim_isAbsent (n : Node) : n.trim.isAbsent = n.isAbsent := by
  cases n with
  | tok t => rfl
  | node k cs => rw [Node.trim]; cases k <;> rfl

section
variable {f : Features} {R₀ R₁ : TokRef → Prop}

theorem saves_eq (cs : List Node) : Node.saves f cs = cs.map (Node.save f) := by
  induction cs with
  | nil => rfl
  | cons c cs ih => rw [Node.saves, ih]; rfl

/-- Pointwise. -/
theorem trims_of_saves : ∀ {cs ds : List Node}, Node.saves f cs = Node.saves f ds →
    (∀ c ∈ cs, ∀ d ∈ ds, c.save f = d.save f → c.trim = d.trim) → cs.map Node.trim = ds.map Node.trim
  | [], [], _, _ => rfl
  | [], _ :: _, h, _ => by cases h
  | _ :: _, [], h, _ => by cases h
  | c :: cs, d :: ds, h, hl => by
    rw [Node.saves, Node.saves, List.cons.injEq] at h
    rw [List.map_cons, List.map_cons, hl c (by simp) d (by simp) h.1,
      trims_of_saves h.2 fun x hx y hy => hl x (List.mem_cons_of_mem _ hx) y (List.mem_cons_of_mem _ hy)]

theorem trim_vec {cs ds : List Node} (h : cs.map Node.trim = ds.map Node.trim) : (Node.node .vec cs).trim = (Node.node .vec ds).trim := by
  have : cs.all Node.isAbsent = ds.all Node.isAbsent := by
    have h1 : ∀ es : List Node, es.all Node.isAbsent = (es.map Node.trim).all Node.isAbsent := by
      intro es; rw [List.all_map]; congr 1; funext e; exact (trim_isAbsent e).symm
    rw [h1 cs, h1 ds, h]
  rw [Node.trim, Node.trim, trims_eq, trims_eq, h, this]

/-- Two lists of annotations that are left out. -/
theorem trim_allNone {a : Ty} {c d : Node} (ha : a.isVec = true) (hc : HasTy R₀ a c) (hd : HasTy R₁ a d)
    (h : c.fields.all Node.isAbsent = true) (h' : d.fields.all Node.isAbsent = true) : c.trim = d.trim := by
  cases a with
  | vec a =>
    obtain ⟨cs, _, rfl⟩ := hasTy_vec.1 hc
    obtain ⟨ds, _, rfl⟩ := hasTy_vec.1 hd
    rw [Node.trim, Node.trim, if_pos ⟨rfl, h⟩, if_pos ⟨rfl, h'⟩]
  | _ => cases ha

theorem saveFields_inj : ∀ {ss : List Stored} {as : List Ty} {cs ds : List Node}, fitsAll ss as = true → (ss.map Stored.name).Nodup →
    HasTys R₀ as cs → HasTys R₁ as ds → gatedEmpty f ss cs → gatedEmpty f ss ds →
    (∀ a ∈ as, ∀ c ∈ cs, ∀ d ∈ ds, HasTy R₀ a c → HasTy R₁ a d → c.save f = d.save f → c.trim = d.trim) →
    saveFields f ss cs (Node.saves f cs) = saveFields f ss ds (Node.saves f ds) → cs.map Node.trim = ds.map Node.trim
  | [], [], _, _, _, _, h, h', _, _, _, _ => by
    cases hasTys_nil.1 h; cases hasTys_nil.1 h'; rfl
  | [], _ :: _, _, _, h, _, _, _, _, _, _, _ => by cases h
  | _ :: _, [], _, _, h, _, _, _, _, _, _, _ => by cases h
  | s :: ss, a :: as, cs, ds, hf, hn, hty, hty', hg, hg', hl, he => by
    obtain ⟨c, cs, hc, hcs, rfl⟩ := hasTys_cons.1 hty
    obtain ⟨d, ds, hd, hds, rfl⟩ := hasTys_cons.1 hty'
    rw [fitsAll, Bool.and_eq_true] at hf
    rw [List.map_cons, List.nodup_cons] at hn
    have ih := saveFields_inj hf.2 hn.2 hcs hds hg.2 hg'.2 fun b hb x hx y hy =>
      hl b (List.mem_cons_of_mem _ hb) x (List.mem_cons_of_mem _ hx) y (List.mem_cons_of_mem _ hy)
    have hfit := hf.1
    unfold Stored.fits at hfit
    rw [Bool.and_eq_true] at hfit
    rw [Node.saves, saveFields, Node.saves, saveFields] at he
    rw [List.map_cons, List.map_cons]
    by_cases hon : s.gate.on f = true
    · cases hsk : s.skip.test c <;> cases hsk' : s.skip.test d <;> simp [hon, hsk, hsk'] at he
      · rw [hl a (by simp) c (by simp) d (by simp) hc hd he.1, ih he.2]
      · have := under_saveFields (f := f) ds (Node.saves f ds) hn.1
        rw [← he, under_cons_self] at this
        cases this
      · have := under_saveFields (f := f) cs (Node.saves f cs) hn.1
        rw [he, under_cons_self] at this
        cases this
      · rw [ih he]
        congr 1
        have ha := hfit.2
        cases hs : s.skip with
        | never => rw [hs] at hsk; cases hsk
        | none =>
          rw [hs] at hsk hsk' ha
          cases a with
          | opt a =>
            rcases hasTy_opt.1 hc with rfl | ⟨_, _, rfl⟩
            · rcases hasTy_opt.1 hd with rfl | ⟨_, _, rfl⟩
              · rfl
              · cases hsk'
            · cases hsk
          | _ => cases ha
        | allNone =>
          rw [hs] at hsk hsk' ha
          exact trim_allNone (by simpa using (Bool.and_eq_true _ _ ▸ ha).1) hc hd hsk hsk'
        | someAllNone =>
          rw [hs] at hsk hsk' ha
          rw [Skip.test, Bool.and_eq_true] at hsk hsk'
          exact trim_allNone (by simpa using (Bool.and_eq_true _ _ ▸ ha).1) hc hd hsk.1 hsk'.1
    · have hon : s.gate.on f = false := by simpa using hon
      have ha : a.isOpt = true ∨ a.isVec = true := by
        have := hfit.1
        rw [Bool.or_eq_true, Bool.or_eq_true] at this
        rcases this with (h | h) | h
        · have : s.gate = .always := by simpa using h
          rw [this] at hon; cases hon
        · exact .inl h
        · exact .inr h
      simp [hon] at he
      rw [ih he, empty_eq hc ha (hg.1 hon), empty_eq hd ha (hg'.1 hon)]

theorem save_inj {m : Node} : ∀ {a : Ty} {n : Node}, a.single = true → HasTy R₀ a m → HasTy R₁ a n → m.Every (fieldsCompiled f) →
    n.Every (fieldsCompiled f) → m.save f = n.save f → m.trim = n.trim := by
  induction m using Node.induct with
  | ht t =>
    intro a n _ h h' _ _ he
    cases a with
    | tok =>
      obtain ⟨t', _, rfl⟩ := hasTy_tok.1 h'
      rw [TokRef.save_inj (show t.save = t'.save from he)]
    | _ => simp [HasTy] at h
  | hn k cs ih =>
    intro a n ha h h' hcomp hcomp' he
    have hcs := ((Node.every_node _ _ _).1 hcomp).2
    cases a with
    | tok => simp [HasTy] at h
    | span =>
      obtain ⟨o, c, _, _, hm⟩ := hasTy_span.1 h
      obtain ⟨o', c', _, _, rfl⟩ := hasTy_span.1 h'
      cases hm
      have : o.save = o'.save ∧ c.save = c'.save := by
        simpa [Node.save, Node.saves, Kind.save] using he
      rw [TokRef.save_inj this.1, TokRef.save_inj this.2]
    | cat c =>
      obtain ⟨k, cs', hk, hcs', hm⟩ := hasTy_cat.1 h
      cases hm
      obtain ⟨k', ds, hk', hds', rfl⟩ := hasTy_cat.1 h'
      have hds := ((Node.every_node _ _ _).1 hcomp').2
      have hw := wellStored hk
      have hw' := wellStored hk'
      unfold Kind.wellStored at hw hw'
      rw [Bool.and_eq_true, List.all_eq_true] at hw hw'
      have hg := gatedEmpty_of hcs' hcomp.1
      have hg' := gatedEmpty_of hds' hcomp'.1
      have hv : k ≠ .vec := by rintro rfl; cases hk
      have hv' : k' ≠ .vec := by rintro rfl; cases hk'
      rw [Node.save, Kind.save_cat hk, Node.save, Kind.save_cat hk'] at he
      rw [trim_node hv, trim_node hv']
      have hl : ∀ b ∈ k.sig, ∀ x ∈ cs, ∀ y ∈ ds, HasTy R₀ b x → HasTy R₁ b y → x.save f = y.save f → x.trim = y.trim :=
        fun b hb x hx y hy hx' hy' => ih x hx (hw.1 b hb) hx' hy' (hcs x hx) (hds y hy)
      cases hs : k.shape with
      | «struct» fs =>
        rw [hs] at hw hg he
        dsimp only at hw he
        rw [Bool.and_eq_true, Bool.and_eq_true, beq_iff_eq, decide_eq_true_eq] at hw
        cases hs' : k'.shape with
        | «struct» fs' =>
          rw [hs'] at hw' hg' he
          dsimp only at hw' he
          rw [Bool.and_eq_true, Bool.and_eq_true, beq_iff_eq, decide_eq_true_eq] at hw'
          have : (k, fs) = (k', fs') := Option.some.inj (hw.2.1.1.symm.trans hw'.2.1.1)
          cases this
          rw [saveFields_inj hw.2.1.2 hw.2.2 hcs' hds' hg hg' hl (Val.map.inj he)]
        | newtype name =>
          rw [hs'] at hw'
          dsimp only at hw'
          rw [Bool.and_eq_true, Bool.and_eq_true, beq_iff_eq] at hw'
          rw [hw.2.1.1] at hw'; cases hw'.2.1.1
        | fields name fs' =>
          rw [hs'] at hw'
          dsimp only at hw'
          rw [Bool.and_eq_true, Bool.and_eq_true, Bool.and_eq_true, beq_iff_eq] at hw'
          rw [hw.2.1.1] at hw'; cases hw'.2.1.1.1
        | container => rw [hs'] at hw'; simp at hw'
      | newtype name =>
        rw [hs] at hw he
        dsimp only at hw he
        rw [Bool.and_eq_true, Bool.and_eq_true, beq_iff_eq, beq_iff_eq, beq_iff_eq] at hw
        cases hs' : k'.shape with
        | «struct» fs' =>
          rw [hs'] at hw'
          dsimp only at hw'
          rw [Bool.and_eq_true, Bool.and_eq_true, beq_iff_eq] at hw'
          rw [hw.2.1.1] at hw'; cases hw'.2.1.1
        | newtype name' =>
          rw [hs'] at hw' he
          dsimp only at hw' he
          rw [Bool.and_eq_true, Bool.and_eq_true, beq_iff_eq, beq_iff_eq, beq_iff_eq] at hw'
          have he' : name = name' ∧ headVal (Node.saves f cs) = headVal (Node.saves f ds) := by simpa using he
          obtain ⟨rfl, he'⟩ := he'
          have : k = k' := Option.some.inj (hw.2.1.2.symm.trans hw'.2.1.2)
          subst this
          obtain ⟨b, hb⟩ : ∃ b, k.sig = [b] := by
            match h1 : k.sig, hw.2.2 with
            | [b], _ => exact ⟨b, rfl⟩
          rw [hb] at hcs' hds'
          obtain ⟨x, xs, hx, hxs, rfl⟩ := hasTys_cons.1 hcs'
          obtain ⟨y, ys, hy, hys, rfl⟩ := hasTys_cons.1 hds'
          cases hasTys_nil.1 hxs
          cases hasTys_nil.1 hys
          have := hl b (by simp [hb]) x (by simp) y (by simp) hx hy he'
          simp [this]
        | fields name' fs' =>
          rw [hs'] at hw' he
          dsimp only at hw' he
          rw [Bool.and_eq_true, Bool.and_eq_true, Bool.and_eq_true, beq_iff_eq, beq_iff_eq] at hw'
          have he' : name = name' := by simp at he; exact he.1
          subst he'
          have : k = k' := Option.some.inj (hw.2.1.2.symm.trans hw'.2.1.1.2)
          subst this
          rw [hs] at hs'; cases hs'
        | container => rw [hs'] at hw'; simp at hw'
      | fields name fs =>
        rw [hs] at hw hg he
        dsimp only at hw he
        rw [Bool.and_eq_true, Bool.and_eq_true, Bool.and_eq_true, beq_iff_eq, beq_iff_eq, decide_eq_true_eq] at hw
        cases hs' : k'.shape with
        | «struct» fs' =>
          rw [hs'] at hw'
          dsimp only at hw'
          rw [Bool.and_eq_true, Bool.and_eq_true, beq_iff_eq] at hw'
          rw [hw.2.1.1.1] at hw'; cases hw'.2.1.1
        | newtype name' =>
          rw [hs'] at hw' he
          dsimp only at hw' he
          rw [Bool.and_eq_true, Bool.and_eq_true, beq_iff_eq, beq_iff_eq, beq_iff_eq] at hw'
          have he' : name = name' := by simp at he; exact he.1
          subst he'
          have : k = k' := Option.some.inj (hw.2.1.1.2.symm.trans hw'.2.1.2)
          subst this
          rw [hs] at hs'; cases hs'
        | fields name' fs' =>
          rw [hs'] at hw' hg' he
          dsimp only at hw' he
          rw [Bool.and_eq_true, Bool.and_eq_true, Bool.and_eq_true, beq_iff_eq, beq_iff_eq] at hw'
          have he' : name = name' ∧ saveFields f fs cs (Node.saves f cs) = saveFields f fs' ds (Node.saves f ds) := by simpa using he
          obtain ⟨rfl, he'⟩ := he'
          have : k = k' := Option.some.inj (hw.2.1.1.2.symm.trans hw'.2.1.1.2)
          subst this
          rw [hs] at hs'; cases hs'
          rw [saveFields_inj hw.2.1.2 hw.2.2 hcs' hds' hg hg' hl he']
        | container => rw [hs'] at hw'; simp at hw'
      | container => rw [hs] at hw; simp at hw
    | opt a =>
      have ha' : a.isOpt = false ∧ a.single = true := by simpa [Ty.single] using ha
      rcases hasTy_opt.1 h with hm | ⟨c, hc, hm⟩ <;> cases hm
      · rcases hasTy_opt.1 h' with rfl | ⟨d, hd, rfl⟩
        · rfl
        · exact (save_ne_null (f := f) hd ha'.1 (show d.save f = .null from he.symm)).elim
      · rcases hasTy_opt.1 h' with rfl | ⟨d, hd, rfl⟩
        · exact (save_ne_null (f := f) hc ha'.1 (show c.save f = .null from he)).elim
        · have hds := ((Node.every_node _ _ _).1 hcomp').2
          rw [trim_node (by simp), trim_node (by simp), List.map_cons, List.map_cons,
            ih c (by simp) ha'.2 hc hd (hcs c (by simp)) (hds d (by simp)) he]
    | vec a =>
      obtain ⟨cs', hc, hm⟩ := hasTy_vec.1 h
      cases hm
      obtain ⟨ds, hd, rfl⟩ := hasTy_vec.1 h'
      have hds := ((Node.every_node _ _ _).1 hcomp').2
      have he' : Node.saves f cs = Node.saves f ds := by simpa [Node.save, Kind.save] using he
      exact trim_vec (trims_of_saves he' fun x hx y hy =>
        ih x hx (by simpa [Ty.single] using ha) (hc x hx) (hd y hy) (hcs x hx) (hds y hy))
    | punct a =>
      obtain ⟨cs', hc, hm⟩ := hasTy_punct.1 h
      cases hm
      obtain ⟨ds, hd, rfl⟩ := hasTy_punct.1 h'
      have hds := ((Node.every_node _ _ _).1 hcomp').2
      have he' : Node.saves f cs = Node.saves f ds := by simpa [Node.save, Kind.save] using he
      rw [trim_node (by simp), trim_node (by simp), trims_of_saves he' fun x hx y hy =>
        ih x hx (by simpa [Ty.single] using ha) (hc x hx) (hd y hy) (hcs x hx) (hds y hy)]
    | pair a =>
      have hds := hcomp'
      rcases hasTy_pair.1 h with ⟨c, hc, hm⟩ | ⟨c, t, hc, _, hm⟩ <;> cases hm <;>
        rcases hasTy_pair.1 h' with ⟨d, hd, rfl⟩ | ⟨d, t', hd, _, rfl⟩ <;>
        rw [Node.every_node] at hds
      · have he' : c.save f = d.save f := by simpa [Node.save, Node.saves, Kind.save, headVal] using he
        rw [trim_node (by simp), trim_node (by simp), List.map_cons, List.map_cons,
          ih c (by simp) (by simpa [Ty.single] using ha) hc hd (hcs c (by simp)) (hds.2 d (by simp)) he']
      · simp [Node.save, Kind.save] at he
      · simp [Node.save, Kind.save] at he
      · have he' : c.save f = d.save f ∧ t.save = t'.save := by simpa [Node.save, Node.saves, Kind.save] using he
        rw [trim_node (by simp), trim_node (by simp), List.map_cons, List.map_cons,
          ih c (by simp) (by simpa [Ty.single] using ha) hc hd (hcs c (by simp)) (hds.2 d (by simp)) he'.1,
          TokRef.save_inj he'.2]
        rfl
    | tup a b =>
      obtain ⟨x, y, hx, hy, hm⟩ := hasTy_tup.1 h
      cases hm
      obtain ⟨x', y', hx', hy', rfl⟩ := hasTy_tup.1 h'
      have hds := ((Node.every_node _ _ _).1 hcomp').2
      rw [Ty.single, Bool.and_eq_true] at ha
      have he' : x.save f = x'.save f ∧ y.save f = y'.save f := by simpa [Node.save, Node.saves, Kind.save] using he
      rw [trim_node (by simp), trim_node (by simp)]
      simp only [List.map_cons, List.map_nil]
      rw [ih x (by simp) ha.1 hx hx' (hcs x (by simp)) (hds x' (by simp)) he'.1,
        ih y (by simp) ha.2 hy hy' (hcs y (by simp)) (hds y' (by simp)) he'.2]

/-! ## Such trees print the same -/

theorem part_tail {β : Type} (as : List (List β)) (i : Nat) : part as.tail i = part as (i + 1) := by
  cases as <;> rfl

theorem joinNames_congr {β : Type} {comma : Bool} : ∀ {ps : List (List (List β))} {as as' bs bs' : List (List β)},
    (∀ i, part as i = part as' i) → (∀ i, part bs i = part bs' i) → joinNames comma ps as bs = joinNames comma ps as' bs'
  | [], _, _, _, _, _, _ => rfl
  | p :: ps, as, as', bs, bs', ha, hb => by
    rw [joinNames, joinNames, ha, hb, joinNames_congr (as := as.tail) (as' := as'.tail) (bs := bs.tail) (bs' := bs'.tail)
      (fun i => by rw [part_tail, part_tail, ha]) (fun i => by rw [part_tail, part_tail, hb])]

theorem part_nils {β : Type} : ∀ (as : List (List β)) (i : Nat), (∀ a ∈ as, a = []) → part as i = []
  | [], _, _ => rfl
  | a :: _, 0, h => h a (by simp)
  | _ :: as, i + 1, h => part_nils as i fun a ha => h a (List.mem_cons_of_mem _ ha)

/-- The elements of a list. -/
theorem parts_trim {cs : List Node} (ht : ∀ c ∈ cs, Typed R₀ c) (ih : ∀ c ∈ cs, c.trim.flat = c.flat) (i : Nat) :
    part ((Node.node .vec cs).trim.children.map Node.flat) i = part (cs.map Node.flat) i := by
  rw [Node.trim]
  by_cases h : cs.all Node.isAbsent = true
  · rw [if_pos ⟨rfl, h⟩]
    refine (part_nils _ _ fun a ha => ?_).symm
    obtain ⟨c, hc, rfl⟩ := List.mem_map.1 ha
    obtain ⟨ds, rfl⟩ := (isAbsent_iff c).1 (List.all_eq_true.1 h c hc)
    obtain ⟨b, hb⟩ := ht _ hc
    cases b with
    | opt b =>
      rcases hasTy_opt.1 hb with hb | ⟨_, _, hb⟩ <;> cases hb
      rfl
    | cat c => simp [HasTy, Kind.cat] at hb
    | _ => simp [HasTy] at hb
  · rw [if_neg (fun h' => h h'.2), trims_eq, Node.children_node, List.map_map]
    congr 1
    exact List.map_congr_left ih

theorem trim_children {n : Node} (h : ∀ cs, n ≠ .node .vec cs) : n.trim.children = n.children.map Node.trim := by
  cases n with
  | tok t => rfl
  | node k cs => rw [trim_node (fun hk => h cs (by rw [hk]))]; rfl

theorem pairs_trim {a : Ty} {ps : List Node} (hp : ∀ p ∈ ps, HasTy R₀ (.pair a) p)
    (ih : ∀ p ∈ ps, ∀ d ∈ p.children, d.trim.flat = d.flat) :
    (ps.map Node.trim).map (fun c => c.children.map Node.flat) = ps.map fun c => c.children.map Node.flat := by
  rw [List.map_map]
  refine List.map_congr_left fun p hm => ?_
  have : ∀ cs, p ≠ .node .vec cs := by
    rintro cs rfl
    exact (hp _ hm).elim
  rw [Function.comp, trim_children this, List.map_map]
  exact List.map_congr_left fun d hd => ih p hm d hd

theorem vec_trim (cs : List Node) : ∃ ds, (Node.node .vec cs).trim = .node .vec ds ∧ ds = (Node.node .vec cs).trim.children :=
  ⟨_, rfl, rfl⟩

theorem flat_trim {n : Node} : Typed R₀ n → n.trim.flat = n.flat := by
  induction n using Node.induct3 with
  | ht t => intro _; rfl
  | hn k cs ih ih2 ih3 =>
    intro h
    have hc := h.cases.1
    have hi : ∀ c ∈ cs, c.trim.flat = c.flat := fun c hm => ih c hm (hc c hm)
    have hi2 : ∀ c ∈ cs, ∀ d ∈ c.children, d.trim.flat = d.flat := fun c hm d hd => ih2 c hm d hd ((hc c hm).children d hd)
    have hi3 : ∀ c ∈ cs, ∀ d ∈ c.children, ∀ e ∈ d.children, e.trim.flat = e.flat :=
      fun c hm d hd e he => ih3 c hm d hd e he (((hc c hm).children d hd).children e he)
    have flatMap_hi : (cs.flatMap fun c => c.trim.flat) = cs.flatMap Node.flat := by
      rw [List.flatMap_def, List.flatMap_def, List.map_congr_left hi]
    have span : ∀ o c : TokRef, (Node.spanOf (.tok o) (.tok c)).trim = .spanOf (.tok o) (.tok c) := fun _ _ => rfl
    have tok : ∀ t : TokRef, (Node.tok t).trim = .tok t := fun _ => rfl
    have hview := h.view
    clear ih ih2 ih3
    cases hview with
    | plain hl =>
      by_cases hk : k = .vec
      · subst hk
        rw [Node.trim]
        by_cases ha : cs.all Node.isAbsent = true
        · rw [if_pos ⟨rfl, ha⟩, flat_vec, flat_vec]
          symm
          rw [List.flatMap_nil, List.flatMap_eq_nil_iff]
          intro c hm
          obtain ⟨ds, rfl⟩ := (isAbsent_iff c).1 (List.all_eq_true.1 ha c hm)
          obtain ⟨b, hb⟩ := hc _ hm
          cases b with
          | opt b =>
            rcases hasTy_opt.1 hb with hb | ⟨_, _, hb⟩ <;> cases hb
            rfl
          | cat c => simp [HasTy, Kind.cat] at hb
          | _ => simp [HasTy] at hb
        · rw [if_neg (fun h' => ha h'.2), trims_eq, flat_vec, flat_vec, List.flatMap_map]
          exact flatMap_hi
      · rw [trim_node hk, Node.flat_plain hl, Node.flat_plain hl, List.flatMap_map]
        exact flatMap_hi
    | wrap hw o c x =>
      rw [trim_node (by rintro rfl; cases hw)]
      simp only [List.map_cons, List.map_nil, span]
      rw [flat_wrap hw, flat_wrap hw, hi x (by simp)]
    | wrapSecond hw b o c x =>
      rw [trim_node (by rintro rfl; cases hw)]
      simp only [List.map_cons, List.map_nil, span]
      rw [flat_wrapSecond hw, flat_wrapSecond hw, hi x (by simp), hi b (by simp)]
    | fieldExprKey o c x e v =>
      rw [trim_node (by simp)]
      simp only [List.map_cons, List.map_nil, span, tok]
      rw [flat_fieldExprKey, flat_fieldExprKey, hi x (by simp), hi v (by simp)]
    | tyArray o c a x =>
      rw [trim_node (by simp)]
      simp only [List.map_cons, List.map_nil, span, tok]
      rw [flat_tyArray, flat_tyArray, hi x (by simp), hi a (by simp)]
    | tyCallback g o c x a r =>
      rw [trim_node (by simp)]
      simp only [List.map_cons, List.map_nil, span, tok]
      rw [flat_tyCallback, flat_tyCallback, hi x (by simp), hi g (by simp), hi r (by simp)]
    | typeInst o p i j x =>
      rw [trim_node (by simp)]
      simp only [List.map_cons, List.map_nil, span, tok]
      rw [flat_typeInst, flat_typeInst, hi x (by simp)]
    | numericFor a1 a2 a3 a4 a5 a6 a7 a8 a9 a10 a11 a12 =>
      rw [trim_node (by simp)]
      simp only [List.map_cons, List.map_nil]
      rw [flat_numericFor, flat_numericFor, hi a1 (by simp), hi a2 (by simp), hi a3 (by simp), hi a4 (by simp), hi a5 (by simp),
        hi a6 (by simp), hi a7 (by simp), hi a8 (by simp), hi a9 (by simp), hi a10 (by simp), hi a11 (by simp), hi a12 (by simp)]
    | genericFor fo ps i e d b en ts hp ht =>
      rw [trim_node (by simp)]
      simp only [List.map_cons, List.map_nil, tok]
      obtain ⟨ds, h1, h2⟩ := vec_trim ts
      rw [trim_node (by simp) ps, h1, flat_genericFor, flat_genericFor, hi i (by simp), hi e (by simp), hi d (by simp), hi b (by simp)]
      have : flatNames (ps.map Node.trim) [] ds = flatNames ps [] ts := by
        unfold flatNames
        rw [pairs_trim hp fun p hm => hi3 (.node .punct ps) (by simp) p hm]
        refine joinNames_congr (fun _ => rfl) fun j => ?_
        rw [h2]
        exact parts_trim (fun t hm => ⟨_, ht t hm⟩) (fun t hm => hi2 (.node .vec ts) (by simp) t hm) j
      rw [this]
    | funcBody g o c ps ts r b en hp ht =>
      rw [trim_node (by simp)]
      simp only [List.map_cons, List.map_nil, tok, span]
      obtain ⟨ds, h1, h2⟩ := vec_trim ts
      rw [trim_node (by simp) ps, h1, flat_funcBody, flat_funcBody, hi g (by simp), hi r (by simp), hi b (by simp)]
      have : flatNames (ps.map Node.trim) [] ds = flatNames ps [] ts := by
        unfold flatNames
        rw [pairs_trim hp fun p hm => hi3 (.node .punct ps) (by simp) p hm]
        refine joinNames_congr (fun _ => rfl) fun j => ?_
        rw [h2]
        exact parts_trim (fun t hm => ⟨_, ht t hm⟩) (fun t hm => hi2 (.node .vec ts) (by simp) t hm) j
      rw [this]
    | localAssignment l ts ps as e x hp ht hat =>
      rw [trim_node (by simp)]
      simp only [List.map_cons, List.map_nil, tok]
      obtain ⟨ds, h1, h2⟩ := vec_trim ts
      obtain ⟨es, h3, h4⟩ := vec_trim as
      rw [trim_node (by simp) ps, h1, h3, flat_localAssignment, flat_localAssignment, hi e (by simp), hi x (by simp)]
      have : flatNames (ps.map Node.trim) es ds = flatNames ps as ts := by
        unfold flatNames
        rw [pairs_trim hp fun p hm => hi3 (.node .punct ps) (by simp) p hm]
        refine joinNames_congr (fun j => ?_) fun j => ?_
        · rw [h4]
          exact parts_trim (fun t hm => ⟨_, hat t hm⟩) (fun t hm => hi2 (.node .vec as) (by simp) t hm) j
        · rw [h2]
          exact parts_trim (fun t hm => ⟨_, ht t hm⟩) (fun t hm => hi2 (.node .vec ts) (by simp) t hm) j
      rw [this]

end

end FM

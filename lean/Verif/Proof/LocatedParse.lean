import Verif.Proof.LocatedPlace

/-!
# Where the parsers of the grammar language fail
-/

set_option autoImplicit false
set_option linter.unusedSectionVars false

namespace Verif.Located

open Verif.Spec

variable {S : Type} (sp : Spans S) (tx : Text)

/-- No reason other than syntax. -/
abbrev NoQ : List (LSymbol S) → Diag S → Prop := fun _ _ => False

theorem OkAt.syms_eq {α : Type} {P : LStream S → Outcome (Diag S) (α × LStream S)} {s s' : LStream S}
    {pre : List (LSymbol S)} {v : α} (h : OkAt P s pre v s') {ss : List Symbol} (hs : s.erase = Verif.items ss ++ s'.erase) :
    syms pre = ss := by
  have h1 : s.erase = Verif.items (syms pre) ++ s'.erase := by
    simp only [LStream.erase, h.items, List.map_append, Verif.items, syms, List.map_map]
    rfl
  rw [h1] at hs
  exact (List.map_inj_right (fun a b e => by cases e; rfl)).mp (List.append_cancel_right hs)

/-- What a relation of outcomes says when the first one is a value. -/
theorem ok_of_rel {α β : Type} {R : α → β → Prop} {x : Outcome (Diag S) α} {y : Outcome MacroError β} {a : α}
    (h : OutRel EK R x y) (hx : x = .ok a) : ∃ b, y = .ok b ∧ R a b := by
  subst hx
  cases y <;> first | exact h.elim | exact ⟨_, rfl, h⟩

variable {V : List Symbol → Prop} {Q : List (LSymbol S) → Diag S → Prop}

/-! ### Single symbols -/

theorem okL_with (cmp : SymT → Bool) (m : String) (s : LStream S) : OkL (expectSymbolWith sp cmp m) s := by
  refine okL_bind (okL_expect sp s) fun x s' _ => ?_
  dsimp only
  by_cases h : cmp x.symbol.sym = true
  · simp only [h, if_true]
    exact okL_pure _ _
  · simp only [h]
    exact okL_err _ _

/-- Nothing, or one symbol of the kind. -/
def Only (h : Hint) (p : List Symbol) : Prop := p = [] ∨ ∃ k, p = [k] ∧ h.Fits k

theorem badL_with (cmp : SymT → Bool) {m : String} {h : Hint} (hm : offers m = [h]) (s : LStream S) :
    BadL sp (Only h) NoQ (expectSymbolWith sp cmp m) s := by
  refine badL_expectThen sp (.inl rfl) s fun x s' _ => ?_
  dsimp only
  by_cases hc : cmp x.symbol.sym = true
  · simp only [hc, if_true]
    exact .inr (badL_pure sp _ _)
  · simp only [hc]
    refine .inl ⟨_, fun _ => rfl, rfl, rfl, ?_⟩
    show Guides (Only h) m []
    refine ⟨fun h0 => ?_, fun h' hh k hk => .inr ⟨k, rfl, ?_⟩⟩
    · rw [hm] at h0
      cases h0
    rw [hm, List.mem_singleton] at hh
    exact hh ▸ hk

theorem with_pre {cmp : SymT → Bool} {m : String} {s s' : LStream S} {a : S} {pre : List (LSymbol S)}
    (h : expectSymbolWith sp cmp m s = .ok (a, s')) (hO : OkAt (expectSymbolWith sp cmp m) s pre a s') :
    ∃ x, pre = [x] ∧ cmp x.symbol.sym = true ∧ a = x.span := by
  obtain ⟨⟨x, s1⟩, h1, h2⟩ := Outcome.bind_eq_ok.mp h
  obtain ⟨i, c⟩ := s
  rcases i with _ | ⟨_ | y, l⟩ <;> cases h1
  dsimp only at h2
  split at h2
  · rename_i hc
    cases Outcome.ok.inj h2
    refine ⟨x, ?_, hc, rfl⟩
    have h3 := hO.items
    match pre, h3 with
    | [], h3 => exact absurd (congrArg List.length h3) (by simp)
    | [z], h3 => cases h3; rfl
    | z :: w :: r, h3 =>
      have := congrArg List.length h3
      simp at this
      omega
  · cases h2

theorem okL_identifier (s : LStream S) : OkL (parseIdentifier sp) s := by
  refine okL_bind (okL_expect sp s) fun x s' _ => ?_
  dsimp only
  cases x.symbol.sym with
  | ident name => exact okL_pure _ _
  | _ => exact okL_err _ _

theorem badL_identifier (hV : V []) (hV' : ∀ k name, Is (.ident name) k → V [k]) (s : LStream S) :
    BadL sp V Q (parseIdentifier sp) s := by
  have hm : Guides V "Expected identifier" [] := by
    refine ⟨by decide +kernel, fun h hh k hk => ?_⟩
    rw [show offers "Expected identifier" = [.ident] by decide +kernel, List.mem_singleton] at hh
    subst hh
    obtain ⟨name, hk⟩ := hk
    exact hV' k name hk
  refine badL_expectThen sp hV s fun x s' _ => ?_
  dsimp only
  cases x.symbol.sym with
  | ident name => exact .inr (badL_pure sp _ _)
  | _ => exact .inl ⟨_, fun _ => rfl, rfl, rfl, hm⟩

/-! ### Types -/

/-- Symbols that may follow the first one of a type. -/
def InType (p : List Symbol) : Prop := ∀ y ∈ p, ¬ Is (.op .arrow) y ∧ ¬ Is (.op .semicolon) y

theorem typeLoop_stop {x : LSymbol S} (h : (x.symbol.sym.isOp .arrow || x.symbol.sym.isOp .semicolon) = true)
    (acc : LType S) (c : Option S) (t : List (LItem S)) :
    parseTypeLoop sp acc c (.ok x :: t) = .ok (acc, ⟨.ok x :: t, c⟩) := by
  simp only [parseTypeLoop, h, if_true]

theorem typeLoop_more {x : LSymbol S} (h : ¬ (x.symbol.sym.isOp .arrow || x.symbol.sym.isOp .semicolon) = true)
    (acc : LType S) (c : Option S) (t : List (LItem S)) :
    parseTypeLoop sp acc c (.ok x :: t) =
      parseTypeLoop sp (acc.1.merge x.symbol.tokens, sp.merge acc.2 x.span) (some x.span) t := by
  rw [parseTypeLoop, if_neg h]

theorem okL_typeLoop (l : List (LItem S)) (acc : LType S) (c : Option S) :
    OkL (fun s => parseTypeLoop sp acc s.current s.items) ⟨l, c⟩ := by
  induction l generalizing acc c with
  | nil => intro v s' h; cases h
  | cons i l ih =>
    cases i with
    | error e => intro v s' h; cases h
    | ok x =>
      intro v s' h
      dsimp only at h
      by_cases hx : (x.symbol.sym.isOp .arrow || x.symbol.sym.isOp .semicolon) = true
      · rw [typeLoop_stop sp hx] at h
        cases Outcome.ok.inj h
        refine ⟨[], rfl, .inl rfl, fun t ht => ?_⟩
        cases t with
        | nil => cases ht
        | cons y t =>
          cases ht
          exact typeLoop_stop sp hx _ _ _
      · rw [typeLoop_more sp hx] at h
        obtain ⟨pre, a1, a2, a3⟩ := ih _ _ v s' h
        refine ⟨x :: pre, by rw [show l = _ from a1]; rfl, ?_, fun t ht => ?_⟩
        · rcases a2 with a2 | ⟨y, hy, a2⟩
          · exact .inr ⟨x, List.mem_cons_self, a2⟩
          · exact .inr ⟨y, List.mem_cons_of_mem _ hy, a2⟩
        · exact (typeLoop_more sp hx _ _ _).trans (a3 t ht)

theorem badL_typeLoop (l : List (LItem S)) (acc : LType S) (c : Option S) :
    BadL sp InType NoQ (fun s => parseTypeLoop sp acc s.current s.items) ⟨l, c⟩ := by
  induction l generalizing acc c with
  | nil =>
    intro e h
    cases h
    exact .ended [] rfl rfl (by intro y hy; cases hy) (.inl rfl)
  | cons i l ih =>
    cases i with
    | error d =>
      intro e h
      cases h
      exact .item [] _ l rfl ⟨rfl, rfl, _, String.append_assoc⟩ (by intro y hy; cases hy) (fun _ => rfl) .error
    | ok x =>
      intro e h
      dsimp only at h
      by_cases hx : (x.symbol.sym.isOp .arrow || x.symbol.sym.isOp .semicolon) = true
      · rw [typeLoop_stop sp hx] at h
        cases h
      · rw [typeLoop_more sp hx] at h
        have hn : ¬ Is (.op .arrow) x.symbol ∧ ¬ Is (.op .semicolon) x.symbol := by
          simp only [Bool.or_eq_true, isOp_iff, not_or] at hx
          exact hx
        have hcons : ∀ {p : List Symbol}, InType p → InType (x.symbol :: p) := by
          intro p hp y hy
          rcases List.mem_cons.mp hy with rfl | hy
          · exact hn
          · exact hp y hy
        cases ih _ _ e h with
        | item pre y rest h1 hb hv hag hh =>
          exact .item (x :: pre) y rest (by rw [show l = _ from h1]; rfl) hb (hcons hv) (fun rest' =>
            (typeLoop_more sp hx _ _ _).trans (hag rest')) (Hinted.prepend (w := [x.symbol]) (hh.mono fun p => hcons))
        | ended pre h1 hk hv hs =>
          refine .ended (x :: pre) (by rw [show l = _ from h1]; rfl) hk (hcons hv) (.inr ?_)
          rcases hs with hs | ⟨y, hy, hs⟩
          · exact ⟨x, List.mem_cons_self, hs⟩
          · exact ⟨y, List.mem_cons_of_mem _ hy, hs⟩
        | other pre rest h1 hq => exact hq.elim

/-- What is read of a type begins a type. -/
def TypePre (p : List Symbol) : Prop := ∃ ext ty, TypeSyntax (p ++ ext) ty

/-- A symbol to continue with. -/
def sym (k : SymT) : Symbol := ⟨k, .nil⟩

theorem typePre_nil : TypePre [] := ⟨[sym (.ident "x")], _, .mk (by intro _ h; cases h)⟩

theorem typePre_cons {x : Symbol} {p : List Symbol} (h : InType p) : TypePre (x :: p) :=
  ⟨[], _, by rw [List.append_nil]; exact .mk h⟩

theorem okL_type (s : LStream S) : OkL (parseType sp) s :=
  okL_bind (okL_expect sp s) fun _ s' _ => okL_typeLoop sp s'.items _ s'.current

theorem badL_type (s : LStream S) : BadL sp TypePre NoQ (parseType sp) s := by
  refine badL_expectThen sp typePre_nil s fun x s' _ => .inr fun e h => ?_
  exact (badL_typeLoop sp s'.items _ s'.current e h).mono sp (fun p hp => typePre_cons hp) fun _ h => h

theorem typeLoop_span {l : List (LItem S)} {acc ty : LType S} {c : Option S} {s' : LStream S}
    (h : parseTypeLoop sp acc c l = .ok (ty, s')) :
    ∃ ts, l = okItems ts ++ s'.items ∧ ty.2 = ts.foldl (fun a y => sp.merge a y.span) acc.2 := by
  induction l generalizing acc c with
  | nil => cases h
  | cons i l ih =>
    cases i with
    | error e => cases h
    | ok x =>
      by_cases hx : (x.symbol.sym.isOp .arrow || x.symbol.sym.isOp .semicolon) = true
      · rw [typeLoop_stop sp hx] at h
        cases Outcome.ok.inj h
        exact ⟨[], rfl, rfl⟩
      · rw [typeLoop_more sp hx] at h
        obtain ⟨ts, h1, h2⟩ := ih h
        exact ⟨x :: ts, by rw [h1]; rfl, h2⟩

theorem okItems_inj {a b : List (LSymbol S)} {t : List (LItem S)} (h : okItems a ++ t = okItems b ++ t) : a = b :=
  (List.map_inj_right (fun _ _ e => by cases e; rfl)).mp (List.append_cancel_right h)

theorem type_pre {s s' : LStream S} {ty : LType S} {pre : List (LSymbol S)} (h : parseType sp s = .ok (ty, s'))
    (hO : OkAt (parseType sp) s pre ty s') : TypeSyntax (syms pre) ty.1 ∧ ty.2 = typeSpan sp pre := by
  constructor
  · obtain ⟨b, hb, rfl⟩ := ok_of_rel (parseType_rel sp s) h
    obtain ⟨ss, h1, -, h2⟩ := parseType_ok.mp hb
    rw [hO.syms_eq h1]
    exact h2
  · obtain ⟨⟨x, s1⟩, h1, h2⟩ := Outcome.bind_eq_ok.mp h
    obtain ⟨i, c⟩ := s
    rcases i with _ | ⟨_ | y, l⟩ <;> cases h1
    obtain ⟨ts, h3, h4⟩ := typeLoop_span sp h2
    have h5 : okItems pre ++ s'.items = okItems (x :: ts) ++ s'.items := by
      rw [← hO.items]
      exact congrArg (List.cons (Except.ok x)) h3
    rw [okItems_inj h5]
    exact h4

/-! ### Nodes -/

/-- `"<" ident ">"`. -/
def RefSyntax (p : List Symbol) (n : String) : Prop :=
  ∃ a b c, p = [a, b, c] ∧ Is (.op .beginProd) a ∧ Is (.ident n) b ∧ Is (.op .endProd) c

/-- What is read begins a reference to a label. -/
def RefPre (p : List Symbol) : Prop := ∃ ext n, RefSyntax (p ++ ext) n

theorem okL_ref (s : LStream S) : OkL (parseProductionRef sp) s := by
  refine okL_bind (okL_with sp _ _ s) fun a s1 _ => okL_bind (okL_expect sp s1) fun x s2 _ => ?_
  dsimp only
  cases x.symbol.sym with
  | ident name => exact okL_bind (okL_with sp _ _ s2) fun b s3 _ => okL_pure _ _
  | _ => exact okL_err _ _

theorem badL_ref (s : LStream S) : BadL sp RefPre NoQ (parseProductionRef sp) s := by
  have h0 : RefPre [] := ⟨[sym (.op .beginProd), sym (.ident "x"), sym (.op .endProd)], "x", _, _, _, rfl, rfl, rfl, rfl⟩
  have h0' : ∀ k, Is (.op .beginProd) k → RefPre [k] := fun k hk =>
    ⟨[sym (.ident "x"), sym (.op .endProd)], "x", _, _, _, rfl, hk, rfl, rfl⟩
  refine badL_bind sp (badL_with sp _ (h := .op .beginProd) (by decide +kernel) s) (by
    rintro p (rfl | ⟨k, rfl, hk⟩)
    · exact h0
    · exact h0' k hk) (fun _ _ h => h) (okL_with sp _ _ s) fun a s1 pre h1 hO => ?_
  obtain ⟨x1, rfl, hx1, -⟩ := with_pre sp h1 hO
  have e1 : Is (.op .beginProd) x1.symbol := isOp_iff.mp hx1
  have hm : Guides (fun p => RefPre (x1.symbol :: p)) "Expected production name." [] := by
    refine ⟨by decide +kernel, fun h hh k hk => ?_⟩
    rw [show offers "Expected production name." = [.ident] by decide +kernel, List.mem_singleton] at hh
    subst hh
    obtain ⟨name, hk⟩ := hk
    exact ⟨[sym (.op .endProd)], name, _, _, _, rfl, e1, hk, rfl⟩
  refine badL_expectThen sp ⟨[sym (.ident "x"), sym (.op .endProd)], "x", _, _, _, rfl, e1, rfl, rfl⟩ s1
    fun x2 s2 _ => ?_
  dsimp only
  cases hx2 : x2.symbol.sym with
  | ident name =>
    refine .inr ?_
    dsimp only
    refine badL_bind sp (badL_with sp _ (h := .op .endProd) (by decide +kernel) s2) ?_ (fun _ _ h => h) (okL_with sp _ _ s2)
      fun b s3 pre h3 hO3 => badL_pure sp _ _
    rintro p (rfl | ⟨k, rfl, hk⟩)
    · exact ⟨[sym (.op .endProd)], name, _, _, _, rfl, e1, hx2, rfl⟩
    · exact ⟨[], name, _, _, _, rfl, e1, hx2, hk⟩
  | _ => exact .inl ⟨_, fun _ => rfl, rfl, rfl, hm⟩

theorem ref_pre {s s' : LStream S} {r : String × S} {pre : List (LSymbol S)} (h : parseProductionRef sp s = .ok (r, s'))
    (hO : OkAt (parseProductionRef sp) s pre r s') : RefSyntax (syms pre) r.1 := by
  obtain ⟨b, hb, rfl⟩ := ok_of_rel (parseProductionRef_rel sp s) h
  obtain ⟨x, y, z, h1, h2, h3, h4⟩ := parseProductionRef_ok.mp hb
  have h5 : s.erase = Verif.items [x, y, z] ++ s'.erase := h1
  exact ⟨x, y, z, hO.syms_eq h5, h2, h3, h4⟩

theorem nodePre_nil : NodePre tx [] := ⟨[sym (.ident "x")], _, .plain rfl, by intro h; cases h⟩

theorem okL_terminalIdent (name : String) (a : S) (s : LStream S) : OkL (parseTerminalIdent sp tx name a) s := by
  refine okL_peek sp s fun x l hs => ?_
  cases x.symbol.sym with
  | paren inner =>
    dsimp only
    split
    · exact okL_take (K := fun s => pure (_, s)) hs (okL_pure _ _)
    · exact okL_take (K := fun s => pure (_, s)) hs (okL_pure _ _)
  | _ => exact okL_pure _ _

theorem badL_terminalIdent (hV : V []) (name : String) (a : S) (s : LStream S) :
    BadL sp V Q (parseTerminalIdent sp tx name a) s := by
  refine badL_peek sp hV s fun x l hs => ?_
  cases x.symbol.sym with
  | paren inner =>
    dsimp only
    split
    · exact badL_pure sp _ _
    · exact badL_pure sp _ _
  | _ => exact badL_pure sp _ _

theorem okL_terminal (s : LStream S) : OkL (parseTerminal sp tx) s := by
  refine okL_bind (okL_expect sp s) fun x s' _ => ?_
  dsimp only
  cases x.symbol.sym with
  | literal text => exact okL_pure _ _
  | ident name => exact okL_terminalIdent sp tx _ _ _
  | op o => cases o <;> first | exact okL_pure _ _ | exact okL_err _ _
  | _ => exact okL_err _ _

theorem badL_terminal (s : LStream S) : BadL sp (NodePre tx) NoQ (parseTerminal sp tx) s := by
  have hm : Guides (NodePre tx) "Unexpected token" [] := by
    refine ⟨by decide +kernel, fun h hh k hk => ?_⟩
    rw [show offers "Unexpected token" = [] by decide +kernel] at hh
    cases hh
  refine badL_expectThen sp (nodePre_nil tx) s fun x s' _ => ?_
  dsimp only
  cases hx : x.symbol.sym with
  | literal text => exact .inr (badL_pure sp _ _)
  | ident name =>
    exact .inr (badL_terminalIdent sp tx ⟨[], _, .plain (name := name) hx, by intro h; cases h⟩ _ _ _)
  | op o => cases o <;> first | exact .inr (badL_pure sp _ _) | exact .inl ⟨_, fun _ => rfl, rfl, rfl, hm⟩
  | _ => exact .inl ⟨_, fun _ => rfl, rfl, rfl, hm⟩

theorem okL_node (s : LStream S) : OkL (parseNode sp tx) s := by
  refine okL_peek sp s fun x l hs => ?_
  have h1 := okL_terminal sp tx s
  dsimp only
  cases x.symbol.sym with
  | op o =>
    cases o with
    | beginProd => exact okL_bind (okL_ref sp s) fun r s' _ => okL_pure _ _
    | _ => exact h1
  | _ => exact h1

theorem badL_node (s : LStream S) : BadL sp (NodePre tx) NoQ (parseNode sp tx) s := by
  refine badL_peek sp (nodePre_nil tx) s fun x l hs => ?_
  have h1 := badL_terminal sp tx s
  dsimp only
  cases x.symbol.sym with
  | op o =>
    cases o with
    | beginProd =>
      refine badL_bind sp (badL_ref sp s) ?_ (fun _ _ h => h) (okL_ref sp s) fun r s' pre _ _ => badL_pure sp _ _
      rintro p ⟨ext, n, a, b, c, h2, ha, hb, hc⟩
      exact ⟨ext, .production n, h2 ▸ .production ha hb hc, by intro h; cases h⟩
    | _ => exact h1
  | _ => exact h1

/-- Nodes and the symbols they are written with. -/
inductive NodesAt (tx : Text) : List (LSymbol S) → List (LNode S) → Prop
  | nil : NodesAt tx [] []
  | cons {a b : List (LSymbol S)} {n : LNode S} {ns : List (LNode S)} : NodeSyntax tx (syms a) n.1 →
      (n.1 = .epsilon → ∃ y, a = [y] ∧ n.2 = y.span) → NodesAt tx b ns → NodesAt tx (a ++ b) (n :: ns)

theorem node_pre {s s' : LStream S} {n : LNode S} {pre : List (LSymbol S)} (h : parseNode sp tx s = .ok (n, s'))
    (hO : OkAt (parseNode sp tx) s pre n s') :
    NodeSyntax tx (syms pre) n.1 ∧ (n.1 = .epsilon → ∃ y, pre = [y] ∧ n.2 = y.span) := by
  obtain ⟨b, hb, rfl⟩ := ok_of_rel (parseNode_rel sp tx s) h
  obtain ⟨ss, h1, h2⟩ := parseNode_sound hb
  have h3 := hO.syms_eq h1
  rw [h3]
  refine ⟨h2, fun he => ?_⟩
  have h2 : NodeSyntax tx ss n.1 := h2
  rw [he] at h2
  generalize hn : ANode.epsilon = k at h2
  cases h2 with
  | @epsilon a ha =>
    match pre, h3 with
    | [y], h3 =>
      refine ⟨y, rfl, ?_⟩
      have hy : y.symbol.sym = .op .bang := by
        cases h3
        exact ha
      have h4 := hO.items
      obtain ⟨i, c⟩ := s
      cases h4
      simp only [parseNode, peekExpectSymbol, parseTerminal, expectSymbol, List.map_nil, Outcome.ok_bind, hy] at h
      exact (congrArg (·.1.2) (Outcome.ok.inj h)).symm
  | _ => cases hn

theorem node_consumes {s s' : LStream S} {n : LNode S} (h : parseNode sp tx s = .ok (n, s')) :
    s'.items.length < s.items.length := by
  obtain ⟨pre, hO⟩ := okL_node sp tx s n s' h
  obtain ⟨x, r, h1, -⟩ := NodeSyntax_head (node_pre sp tx h hO).1
  have h2 := congrArg List.length h1
  have h3 := congrArg List.length hO.items
  simp only [syms, List.length_map, List.length_append, List.length_cons] at h2 h3
  omega

/-! ### Rules -/

theorem bind_congr {α β : Type} {x : Outcome (Diag S) α} {f g : α → Outcome (Diag S) β}
    (h : ∀ a, x = .ok a → f a = g a) : x >>= f = x >>= g := by
  cases x with
  | ok a => exact h a rfl
  | _ => rfl

theorem parseNodes_fuel {fuel fuel' : Nat} (rule : List (LNode S)) {s : LStream S} (h : s.items.length < fuel)
    (h' : s.items.length < fuel') : parseNodes sp tx fuel rule s = parseNodes sp tx fuel' rule s := by
  induction fuel generalizing fuel' rule s with
  | zero => omega
  | succ fuel ih =>
    cases fuel' with
    | zero => omega
    | succ fuel' =>
      unfold parseNodes
      refine bind_congr fun x _ => ?_
      have h1 : (parseNode sp tx s >>= fun p => parseNodes sp tx fuel (rule ++ [p.1]) p.2) =
          (parseNode sp tx s >>= fun p => parseNodes sp tx fuel' (rule ++ [p.1]) p.2) := by
        refine bind_congr fun p hp => ?_
        have := node_consumes sp tx (n := p.1) (s' := p.2) hp
        exact ih _ (by omega) (by omega)
      cases x.symbol.sym with
      | op o => cases o <;> first | rfl | exact h1
      | group d inner => rfl
      | _ => exact h1

/-- The loop of `parse_rule` with enough fuel. -/
def nodes (rule : List (LNode S)) (s : LStream S) : Outcome (Diag S) ((List (LNode S) × Option (LBlock S)) × LStream S) :=
  parseNodes sp tx (s.items.length + 1) rule s

theorem nodes_eq (rule : List (LNode S)) : nodes sp tx rule = fun s => peekExpectSymbol sp s >>= fun x =>
    match x.symbol.sym with
    | .op .semicolon => pure ((rule, none), s)
    | .op .pipe => pure ((rule, none), s)
    | .group d _ => pure ((rule, some ⟨d, x.span, x.inner⟩), take s)
    | _ => parseNode sp tx s >>= fun p => nodes sp tx (rule ++ [p.1]) p.2 := by
  funext s
  refine bind_congr fun x _ => ?_
  have h1 : (parseNode sp tx s >>= fun p => parseNodes sp tx s.items.length (rule ++ [p.1]) p.2) =
      (parseNode sp tx s >>= fun p => nodes sp tx (rule ++ [p.1]) p.2) := by
    refine bind_congr fun p hp => ?_
    have := node_consumes sp tx (n := p.1) (s' := p.2) hp
    exact parseNodes_fuel sp tx _ (by omega) (by omega)
  cases x.symbol.sym with
  | op o => cases o <;> first | rfl | exact h1
  | group d inner => rfl
  | _ => exact h1

theorem okL_nodes (rule : List (LNode S)) (s : LStream S) : OkL (nodes sp tx rule) s := by
  generalize hn : s.items.length = n
  induction n using Nat.strongRecOn generalizing rule s with
  | ind n ih =>
    rw [nodes_eq]
    refine okL_peek sp s fun x l hs => ?_
    have h1 : OkL (fun s => parseNode sp tx s >>= fun p => nodes sp tx (rule ++ [p.1]) p.2) s :=
      okL_bind (okL_node sp tx s) fun v s' h => ih s'.items.length (hn ▸ node_consumes sp tx h) _ s' rfl
    cases x.symbol.sym with
    | op o => cases o <;> first | exact okL_pure _ _ | exact h1
    | group d inner => exact okL_take (K := fun s => pure (_, s)) hs (okL_pure _ _)
    | _ => exact h1

/-- After the nodes `ns`, what is read begins the rest of a rule, or the rule is mixed. -/
def RestPre (tx : Text) (ns : List ANode) (p : List Symbol) : Prop :=
  (∃ ext ns', NodesSyntax tx (p ++ ext) ns' ∧ Alone (ns ++ ns')) ∨ Mixed tx ns p

theorem restPre_nil {ns : List ANode} (hne : ns ≠ []) : RestPre tx ns [] := by
  by_cases h : Alone ns
  · exact .inl ⟨[], [], .nil, by rwa [List.append_nil]⟩
  · refine .inr ⟨[], [], [], rfl, .nil, ?_, .inl ?_, nodePre_nil tx⟩
    · rw [List.append_nil]
      exact Classical.byContradiction fun h1 => h fun h2 => absurd h2 h1
    · rw [List.append_nil]
      match ns, hne, h with
      | [n], _, h =>
        exact absurd (fun h1 => by rw [List.mem_singleton.mp h1]) h
      | _ :: _ :: _, _, _ => simp

theorem restPre_node {ns : List ANode} (hne : ns ≠ []) {p : List Symbol} (h : NodePre tx p) : RestPre tx ns p := by
  by_cases he : .epsilon ∈ ns
  · cases p with
    | nil => exact restPre_nil tx hne
    | cons x p => exact .inr ⟨[], x :: p, [], rfl, .nil, by simpa using he, .inr (by simp), h⟩
  · obtain ⟨ext, n, h1, h2⟩ := h
    refine .inl ⟨ext, [n], by simpa using NodesSyntax.cons h1 .nil, fun h3 => ?_⟩
    rcases List.mem_append.mp h3 with h3 | h3
    · exact absurd h3 he
    · exact absurd (List.mem_singleton.mp h3).symm h2

theorem mixed_cons {ns : List ANode} {n : ANode} {a p : List Symbol} (h : NodeSyntax tx a n)
    (hp : Mixed tx (ns ++ [n]) p) : Mixed tx ns (a ++ p) := by
  obtain ⟨b, c, ns', rfl, h2, h3, h4, h5⟩ := hp
  exact ⟨a ++ b, c, n :: ns', by rw [List.append_assoc], .cons h h2, by simpa using h3, by simpa using h4, h5⟩

theorem restPre_cons {ns : List ANode} {n : ANode} {a p : List Symbol} (h : NodeSyntax tx a n)
    (hp : RestPre tx (ns ++ [n]) p) : RestPre tx ns (a ++ p) := by
  rcases hp with ⟨ext, ns', h1, h2⟩ | hp
  · exact .inl ⟨ext, n :: ns', by rw [List.append_assoc]; exact .cons h h1, by simpa using h2⟩
  · exact .inr (mixed_cons tx h hp)

theorem badL_nodes (rule : List (LNode S)) (hne : rule ≠ []) (s : LStream S) :
    BadL sp (RestPre tx (rule.map (·.1))) NoQ (nodes sp tx rule) s := by
  generalize hn : s.items.length = n
  induction n using Nat.strongRecOn generalizing rule s with
  | ind n ih =>
    have hne' : rule.map (·.1) ≠ [] := by simpa using hne
    rw [nodes_eq]
    refine badL_peek sp (restPre_nil tx hne') s fun x l hs => ?_
    have h1 : BadL sp (RestPre tx (rule.map (·.1))) NoQ
        (fun s => parseNode sp tx s >>= fun p => nodes sp tx (rule ++ [p.1]) p.2) s := by
      refine badL_bind sp (badL_node sp tx s) (fun p => restPre_node tx hne') (fun _ _ h => h) (okL_node sp tx s)
        fun v s' pre h hO e he => ?_
      refine (ih s'.items.length (hn ▸ node_consumes sp tx h) (rule ++ [v]) (by simp) s' rfl e he).mono sp
        (fun p hp => ?_) fun _ h => h
      rw [List.map_append] at hp
      exact restPre_cons tx (node_pre sp tx h hO).1 hp
    cases x.symbol.sym with
    | op o => cases o <;> first | exact badL_pure sp _ _ | exact h1
    | group d inner => exact badL_pure sp _ _
    | _ => exact h1

/-- What the loop of `parse_rule` reads: nodes, then perhaps a constructor. -/
theorem nodes_pre {rule rule' : List (LNode S)} {block : Option (LBlock S)} {s s' : LStream S}
    (h : nodes sp tx rule s = .ok ((rule', block), s')) :
    ∃ b blk ns, s.items = okItems b ++ (okItems blk ++ s'.items) ∧ rule' = rule ++ ns ∧ NodesAt tx b ns ∧
      (∀ z ∈ blk, ∃ d i, Is (.group d i) z.symbol) := by
  generalize hn : s.items.length = n
  induction n using Nat.strongRecOn generalizing rule s with
  | ind n ih =>
    rw [nodes_eq] at h
    obtain ⟨x, hx, h⟩ := Outcome.bind_eq_ok.mp h
    have h1 : (parseNode sp tx s >>= fun p => nodes sp tx (rule ++ [p.1]) p.2) = .ok ((rule', block), s') →
        ∃ b blk ns, s.items = okItems b ++ (okItems blk ++ s'.items) ∧ rule' = rule ++ ns ∧ NodesAt tx b ns ∧
      (∀ z ∈ blk, ∃ d i, Is (.group d i) z.symbol) := by
      intro h
      obtain ⟨⟨v, s1⟩, h2, h3⟩ := Outcome.bind_eq_ok.mp h
      obtain ⟨pre, hO⟩ := okL_node sp tx s v s1 h2
      obtain ⟨b, blk, ns, h4, h5, h6, h8⟩ := ih s1.items.length (hn ▸ node_consumes sp tx h2) h3 rfl
      have h7 := node_pre sp tx h2 hO
      exact ⟨pre ++ b, blk, v :: ns, by rw [hO.items, h4, okItems_append, List.append_assoc], by rw [h5]; simp,
        .cons h7.1 h7.2 h6, h8⟩
    have h2 : rule' = rule → s' = s → ∃ b blk ns, s.items = okItems b ++ (okItems blk ++ s'.items) ∧
        rule' = rule ++ ns ∧ NodesAt tx b ns ∧ (∀ z ∈ blk, ∃ d i, Is (.group d i) z.symbol) := by
      rintro rfl rfl
      exact ⟨[], [], [], rfl, by simp, .nil, by simp⟩
    cases hk : x.symbol.sym with
    | op o =>
      rw [hk] at h
      cases o <;> first
        | exact h1 h
        | (have h3 := Outcome.ok.inj h; exact h2 (congrArg (·.1.1) h3).symm (congrArg (·.2) h3).symm)
    | group d inner =>
      rw [hk] at h
      have h3 := Outcome.ok.inj h
      obtain ⟨i, c⟩ := s
      rcases i with _ | ⟨_ | y, l⟩ <;> cases hx
      have h4 : s' = ⟨l, some x.span⟩ := (congrArg (·.2) h3).symm
      have h5 : rule' = rule := (congrArg (·.1.1) h3).symm
      subst h4 h5
      exact ⟨[], [x], [], rfl, by simp, .nil, by simpa using ⟨d, inner, hk⟩⟩
    | _ =>
      rw [hk] at h
      exact h1 h

theorem NodesAt.syntax {b : List (LSymbol S)} {ns : List (LNode S)} (h : NodesAt tx b ns) :
    NodesSyntax tx (syms b) (ns.map (·.1)) := by
  induction h with
  | nil => exact .nil
  | cons h1 _ _ ih =>
    rw [syms, List.map_append]
    exact .cons h1 ih

theorem node_bang {a : List Symbol} {n : ANode} (h : NodeSyntax tx a n) (hn : n ≠ .epsilon) :
    ∀ z ∈ a, ¬ Is (.op .bang) z := by
  cases h with
  | epsilon _ => exact absurd rfl hn
  | production ha hb hc =>
    simp only [Is] at *
    simp [ha, hb, hc]
  | literal ha =>
    simp only [Is] at *
    simp [ha]
  | plain ha =>
    simp only [Is] at *
    simp [ha]
  | wildcard ha hb _ =>
    simp only [Is] at *
    simp [ha, hb]
  | pattern ha hb _ =>
    simp only [Is] at *
    simp [ha, hb]

/-- The first epsilon among nodes is the first `!` among their symbols. -/
theorem NodesAt.first {b : List (LSymbol S)} {ns : List (LNode S)} (h : NodesAt tx b ns) {n : LNode S}
    (hn : ns.find? (fun n => n.1.isEpsilon) = some n) : ∃ b1 y b2, b = b1 ++ y :: b2 ∧ Is (.op .bang) y.symbol ∧
      (∀ z ∈ b1, ¬ Is (.op .bang) z.symbol) ∧ n.2 = y.span := by
  induction h with
  | nil => cases hn
  | @cons a b m ns h1 h2 _ ih =>
    rw [List.find?_cons] at hn
    by_cases he : m.1 = .epsilon
    · obtain ⟨y, rfl, h3⟩ := h2 he
      rw [he] at hn h1
      cases hn
      refine ⟨[], y, b, rfl, ?_, by simp, h3⟩
      generalize hk : ANode.epsilon = k at h1
      generalize hl : syms [y] = l at h1
      cases h1 with
      | epsilon ha => cases hl; exact ha
      | _ => cases hk
    · have : m.1.isEpsilon = false := by
        cases hm : m.1 <;> simp_all [ANode.isEpsilon]
      rw [this] at hn
      obtain ⟨b1, y, b2, rfl, h3, h4, h5⟩ := ih hn
      refine ⟨a ++ b1, y, b2, by rw [List.append_assoc], h3, fun z hz => ?_, h5⟩
      rcases List.mem_append.mp hz with hz | hz
      · exact node_bang tx h1 he _ (List.mem_map_of_mem hz)
      · exact h4 z hz

/-- What is read begins a rule, or the rule is mixed. -/
def RulePre (tx : Text) (p : List Symbol) : Prop := (∃ ext a, RuleSyntax tx (p ++ ext) a) ∨ Mixed tx [] p

/-- The node that the check of epsilon complains about. -/
def badNode (rule : List (LNode S)) : Option (LNode S) :=
  if rule.length > 1 then rule.find? fun n => n.1.isEpsilon else none

/-- `parse_rule` after its nodes. -/
def ruleEnd (name : String) (ty : Option (LType S)) (p : (List (LNode S) × Option (LBlock S)) × LStream S) :
    Outcome (Diag S) (LRule S × LStream S) :=
  match badNode p.1.1 with
  | some n => .err ⟨.epsilonNotAlone, "Epsilon may only appear in a rule by itself", n.2⟩
  | none => pure (⟨name, ty, p.1.1, p.1.2⟩, p.2)

theorem parseRule_eq (name : String) (ty : Option (LType S)) : parseRule sp tx name ty = fun s =>
    parseNode sp tx s >>= fun p => nodes sp tx [p.1] p.2 >>= ruleEnd name ty := rfl

theorem okL_rule (name : String) (ty : Option (LType S)) (s : LStream S) : OkL (parseRule sp tx name ty) s := by
  rw [parseRule_eq]
  refine okL_bind (okL_node sp tx s) fun v s1 _ => okL_bind (okL_nodes sp tx [v] s1) fun w s2 _ => ?_
  unfold ruleEnd
  dsimp only
  cases badNode w.1 with
  | some n => exact okL_err _ _
  | none => exact okL_pure _ _

theorem rulePre_first {a p : List Symbol} {n : ANode} (h : NodeSyntax tx a n) (hp : RestPre tx [n] p) :
    RulePre tx (a ++ p) := by
  rcases restPre_cons (ns := []) tx h hp with ⟨ext, ns', h1, h2⟩ | h1
  · rcases hp with ⟨ext', ns'', h3, h4⟩ | hp
    · refine .inl ⟨ext', _, by rw [List.append_assoc]; exact .bare (.cons h h3) (by simp) h4⟩
    · exact .inr (mixed_cons (ns := []) tx h hp)
  · exact .inr h1

theorem badL_rule (name : String) (ty : Option (LType S)) (s : LStream S) :
    BadL sp (RulePre tx) (EpsReason tx) (parseRule sp tx name ty) s := by
  rw [parseRule_eq]
  refine badL_bind sp (badL_node sp tx s) ?_ (fun _ _ h => h.elim) (okL_node sp tx s) fun v s1 pre hv hO => ?_
  · rintro p ⟨ext, n, h1, h2⟩
    refine .inl ⟨ext, ([n], none), .bare (by simpa using NodesSyntax.cons h1 .nil) (by simp) fun h3 => ?_⟩
    exact absurd (List.mem_singleton.mp h3).symm h2
  · have hn := node_pre sp tx hv hO
    have key : BadL sp (fun p => RulePre tx (syms pre ++ p)) (fun p e => EpsReason tx (pre ++ p) e)
        (fun s => nodes sp tx [v] s >>= ruleEnd name ty) s1 := by
      refine badL_bind sp (badL_nodes sp tx [v] (by simp) s1) (fun p hp => rulePre_first tx hn.1 hp) (fun _ _ h => h.elim)
        (okL_nodes sp tx [v] s1) fun w s2 pre2 hw hO2 e he => ?_
      obtain ⟨rule, block⟩ := w
      obtain ⟨b, blk, ns, h1, h2, h3, h9⟩ := nodes_pre sp tx hw
      have h4 : pre2 = b ++ blk := by
        refine okItems_inj (t := s2.items) ?_
        rw [← hO2.items, h1, okItems_append, List.append_assoc]
      subst h4 h2
      have hall := NodesAt.cons hn.1 hn.2 h3
      unfold ruleEnd at he
      dsimp only at he
      cases hb : badNode ([v] ++ ns) with
      | none =>
        rw [hb] at he
        cases he
      | some n =>
        rw [hb] at he
        have he := Outcome.err.inj he
        unfold badNode at hb
        by_cases hl : ([v] ++ ns).length > 1
        · rw [if_pos hl] at hb
          obtain ⟨b1, y, b2, h5, h6, h7, h8⟩ := NodesAt.first tx hall hb
          refine .other [] s2.items rfl ⟨by rw [← he]; exact ⟨rfl, rfl⟩, b1, y, b2, blk, (v :: ns).map (·.1), ?_, ?_, ?_, h6, h7,
            h9, ?_⟩
          · rw [← h5]
            simp
          · rw [← h5]
            exact NodesAt.syntax tx hall
          · simpa using hl
          · rw [← he]
            exact h8
        · rw [if_neg hl] at hb
          cases hb
    exact key

end Verif.Located

import Verif.Proof.LocatedParse
import Verif.Props.GrammarSyntax

/-!
# Where the parser of the grammar language fails: declarations, options and files
-/

set_option autoImplicit false
set_option linter.unusedSectionVars false

namespace Verif.Located

open Verif.Spec

variable {S : Type} (sp : Spans S) (tx : Text)

/-! ### Beginnings -/

variable {L L' : List Symbol → Prop}

theorem Begins.prepend {w p : List Symbol} (h : Begins tx L' p) (hw : ∀ q, L' q → ∃ tl, L (w ++ (q ++ tl))) :
    Begins tx L (w ++ p) := by
  rcases h with ⟨ext, h⟩ | ⟨a, k, b, ext, rfl, h1, h2, h3⟩
  · obtain ⟨tl, h⟩ := hw _ h
    exact .inl ⟨ext ++ tl, by simpa using h⟩
  · obtain ⟨tl, h⟩ := hw _ h2
    exact .inr ⟨w ++ a, k, b, ext ++ tl, by simp, h1, by simpa using h, h3⟩

theorem EpsIn.prepend {w p : List (LSymbol S)} {e : Diag S} (h : EpsIn tx L' p e)
    (hw : ∀ q, L' q → ∃ tl, L (syms w ++ (q ++ tl))) : EpsIn tx L (w ++ p) e := by
  obtain ⟨a, k, b, ext, rfl, h1, h2, h3⟩ := h
  obtain ⟨tl, h⟩ := hw _ h2
  exact ⟨w ++ a, k, b, ext ++ tl, by simp, h1, by simpa [syms] using h, h3⟩

/-- A rule to continue with. -/
theorem rule_exists : RuleSyntax tx [sym (.ident "x")] ([.symbol ⟨"x", .none⟩], none) :=
  .bare (by simpa using NodesSyntax.cons (.plain (a := sym (.ident "x")) rfl) .nil) (by simp) (by
    intro h; simp at h)

theorem Begins.rule {w : List Symbol} {k : Symbol} {p : List Symbol} (hk : Is (.op .arrow) k ∨ Is (.op .pipe) k)
    (h : RulePre tx p) (hL : ∀ r a, RuleSyntax tx r a → ∃ tl, L (w ++ k :: (r ++ tl))) : Begins tx L (w ++ k :: p) := by
  rcases h with ⟨ext, a, h⟩ | h
  · obtain ⟨tl, h⟩ := hL _ _ h
    exact .inl ⟨ext ++ tl, by simpa using h⟩
  · obtain ⟨tl, h1⟩ := hL _ _ (rule_exists tx)
    exact .inr ⟨w, k, p, _, rfl, hk, h1, h⟩

theorem EpsIn.rule {w : List (LSymbol S)} {k : LSymbol S} {p : List (LSymbol S)} {e : Diag S}
    (hk : Is (.op .arrow) k.symbol ∨ Is (.op .pipe) k.symbol) (h : EpsReason tx p e)
    (hL : ∀ r a, RuleSyntax tx r a → ∃ tl, L (syms w ++ k.symbol :: (r ++ tl))) : EpsIn tx L (w ++ k :: p) e := by
  obtain ⟨tl, h1⟩ := hL _ _ (rule_exists tx)
  exact ⟨w, k, p, _, rfl, hk, h1, h⟩

theorem OkL.length {α : Type} {P : LStream S → Outcome (Diag S) (α × LStream S)} {s s' : LStream S} {v : α}
    (h : OkL P s) (hp : P s = .ok (v, s')) : s'.items.length ≤ s.items.length := by
  obtain ⟨pre, hO⟩ := h v s' hp
  rw [hO.items, List.length_append]
  omega

theorem expect_length {s s' : LStream S} {x : LSymbol S} (h : expectSymbol sp s = .ok (x, s')) :
    s'.items.length < s.items.length := by
  obtain ⟨i, c⟩ := s
  rcases i with _ | ⟨_ | y, l⟩ <;> cases h
  exact Nat.lt_succ_self _

/-! ### Alternatives -/

theorem parseAlternatives_fuel (name : String) (ty : Option (LType S)) {fuel fuel' : Nat} (rules : List (LRule S))
    {s : LStream S} (h : s.items.length < fuel) (h' : s.items.length < fuel') :
    parseAlternatives sp tx name ty fuel rules s = parseAlternatives sp tx name ty fuel' rules s := by
  induction fuel generalizing fuel' rules s with
  | zero => omega
  | succ fuel ih =>
    cases fuel' with
    | zero => omega
    | succ fuel' =>
      unfold parseAlternatives
      refine bind_congr fun p hp => ?_
      have h0 := expect_length sp (x := p.1) (s' := p.2) hp
      dsimp only
      cases p.1.symbol.sym with
      | op o =>
        cases o with
        | pipe =>
          refine bind_congr fun q hq => ?_
          have := (okL_rule sp tx name ty p.2).length (v := q.1) (s' := q.2) hq
          exact ih _ (by omega) (by omega)
        | _ => rfl
      | _ => rfl

/-- The loop of `ProductionRule::parse` with enough fuel. -/
def alts (name : String) (ty : Option (LType S)) (rules : List (LRule S)) (s : LStream S) :
    Outcome (Diag S) (List (LRule S) × LStream S) :=
  parseAlternatives sp tx name ty (s.items.length + 1) rules s

/-- One round of that loop, after its symbol. -/
def altsNext (name : String) (ty : Option (LType S)) (rules : List (LRule S)) (p : LSymbol S × LStream S) :
    Outcome (Diag S) (List (LRule S) × LStream S) :=
  match p.1.symbol.sym with
  | .op .pipe => parseRule sp tx name ty p.2 >>= fun q => alts sp tx name ty (rules ++ [q.1]) q.2
  | .op .semicolon => pure (rules, p.2)
  | _ => .err ⟨.unexpectedToken, "Expected either `;` or `|`", p.1.span⟩

theorem alts_eq (name : String) (ty : Option (LType S)) (rules : List (LRule S)) :
    alts sp tx name ty rules = fun s => expectSymbol sp s >>= altsNext sp tx name ty rules := by
  funext s
  refine bind_congr fun p hp => ?_
  have h0 := expect_length sp (x := p.1) (s' := p.2) hp
  unfold altsNext
  dsimp only
  cases p.1.symbol.sym with
  | op o =>
    cases o with
    | pipe =>
      refine bind_congr fun q hq => ?_
      have := (okL_rule sp tx name ty p.2).length (v := q.1) (s' := q.2) hq
      exact parseAlternatives_fuel sp tx _ _ _ (by omega) (by omega)
    | _ => rfl
  | _ => rfl

theorem okL_alts (name : String) (ty : Option (LType S)) (rules : List (LRule S)) (s : LStream S) :
    OkL (alts sp tx name ty rules) s := by
  generalize hn : s.items.length = n
  induction n using Nat.strongRecOn generalizing rules s with
  | ind n ih =>
    rw [alts_eq]
    refine okL_bind (okL_expect sp s) fun x s1 h1 => ?_
    have h0 := expect_length sp h1
    unfold altsNext
    dsimp only
    cases x.symbol.sym with
    | op o =>
      cases o with
      | pipe =>
        refine okL_bind (okL_rule sp tx name ty s1) fun q s2 h2 => ?_
        have := (okL_rule sp tx name ty s1).length h2
        exact ih s2.items.length (by omega) _ s2 rfl
      | semicolon => exact okL_pure _ _
      | _ => exact okL_err _ _
    | _ => exact okL_err _ _

/-- `("|" rule)* ";"`. -/
abbrev TailL (tx : Text) (q : List Symbol) : Prop := ∃ as, TailSyntax tx q as

theorem rule_pre {name : String} {ty : Option (LType S)} {s s' : LStream S} {r : LRule S} {pre : List (LSymbol S)}
    (h : parseRule sp tx name ty s = .ok (r, s')) (hO : OkAt (parseRule sp tx name ty) s pre r s') :
    ∃ a, RuleSyntax tx (syms pre) a := by
  obtain ⟨b, hb, rfl⟩ := ok_of_rel (parseRule_rel sp tx name ty s) h
  obtain ⟨ss, a, h1, h2, -⟩ := parseRule_sound hb
  exact ⟨a, by rw [hO.syms_eq h1]; exact h2⟩

theorem badL_alts (name : String) (ty : Option (LType S)) (rules : List (LRule S)) (s : LStream S) :
    BadL sp (Begins tx (TailL tx)) (EpsIn tx (TailL tx)) (alts sp tx name ty rules) s := by
  generalize hn : s.items.length = n
  induction n using Nat.strongRecOn generalizing rules s with
  | ind n ih =>
    rw [alts_eq]
    have hm : Guides (Begins tx (TailL tx)) "Expected either `;` or `|`" [] := by
      refine ⟨by decide +kernel, fun h hh k hk => ?_⟩
      rw [show offers "Expected either `;` or `|`" = [.op .semicolon, .op .pipe] by decide +kernel] at hh
      rcases List.mem_cons.mp hh with rfl | hh
      · exact .inl ⟨[], _, .stop hk⟩
      · rw [List.mem_singleton] at hh
        subst hh
        have h1 := TailSyntax.more hk (rule_exists tx) (.stop (x := sym (.op .semicolon)) rfl)
        exact .inl ⟨[sym (.ident "x")] ++ [sym (.op .semicolon)], _, h1⟩
    refine badL_expectThen sp (.inl ⟨[sym (.op .semicolon)], _, .stop rfl⟩) s fun x s1 h1 => ?_
    have h0 := expect_length sp h1
    unfold altsNext
    dsimp only
    cases hx : x.symbol.sym with
    | op o =>
      cases o with
      | pipe =>
        have htail : ∀ r a, RuleSyntax tx r a → ∃ tl, TailL tx ([] ++ x.symbol :: (r ++ tl)) := fun r a hr =>
          ⟨[sym (.op .semicolon)], _, .more hx hr (.stop rfl)⟩
        refine .inr (badL_bind sp (badL_rule sp tx name ty s1) (fun p hp => ?_) (fun p e hp => ?_)
          (okL_rule sp tx name ty s1) fun q s2 pre h2 hO e he => ?_)
        · exact Begins.rule (w := []) tx (.inr hx) hp htail
        · exact EpsIn.rule (w := []) tx (.inr hx) hp htail
        · have := (okL_rule sp tx name ty s1).length h2
          obtain ⟨a, ha⟩ := rule_pre sp tx h2 hO
          refine (ih s2.items.length (by omega) _ s2 rfl e he).mono sp (fun p hp => ?_) fun p hp => ?_
          · refine Begins.prepend (w := x.symbol :: syms pre) tx hp fun q hq => ?_
            obtain ⟨as, hq⟩ := hq
            exact ⟨[], _, by simpa using TailSyntax.more hx ha hq⟩
          · refine EpsIn.prepend (w := x :: pre) tx hp fun q hq => ?_
            obtain ⟨as, hq⟩ := hq
            exact ⟨[], _, by simpa [syms] using TailSyntax.more hx ha hq⟩
      | semicolon => exact .inr (badL_pure sp _ _)
      | _ => exact .inl ⟨_, fun _ => rfl, rfl, rfl, hm⟩
    | _ => exact .inl ⟨_, fun _ => rfl, rfl, rfl, hm⟩

/-! ### Declarations -/

theorem RetAt.syntax {ts : List (LSymbol S)} {ty : Option (LType S)} (h : RetAt sp ts ty) :
    ReturnTypeSyntax (syms ts) (ty.map (·.1)) := by
  rcases h with ⟨rfl, rfl⟩ | ⟨colon, r, t, rfl, h1, h2, -, rfl⟩
  · exact .none
  · exact .some h1 h2

/-- What is read begins a type of a declaration. -/
def RetPre (p : List Symbol) : Prop := ∃ ext ty, ReturnTypeSyntax (p ++ ext) ty

theorem okL_returnType (s : LStream S) : OkL (maybeParseReturnType sp) s := by
  refine okL_peek sp s fun x l hs => ?_
  cases x.symbol.sym with
  | op o =>
    cases o with
    | colon =>
      exact okL_take (K := fun s => parseType sp s >>= fun p => pure (some p.1, p.2)) hs
        (okL_bind (okL_type sp _) fun _ _ _ => okL_pure _ _)
    | _ => exact okL_pure _ _
  | _ => exact okL_pure _ _

theorem badL_returnType (s : LStream S) : BadL sp RetPre NoQ (maybeParseReturnType sp) s := by
  refine badL_peek sp ⟨[], _, .none⟩ s fun x l hs => ?_
  cases hx : x.symbol.sym with
  | op o =>
    cases o with
    | colon =>
      refine badL_take (K := fun s => parseType sp s >>= fun p => pure (some p.1, p.2)) sp hs
        (badL_bind sp (badL_type sp _) ?_ (fun _ _ h => h) (okL_type sp _) fun _ _ _ _ _ => badL_pure sp _ _)
      rintro p ⟨ext, ty, h⟩
      exact ⟨ext, _, .some hx h⟩
    | _ => exact badL_pure sp _ _
  | _ => exact badL_pure sp _ _

theorem returnType_pre {s s' : LStream S} {ty : Option (LType S)} {pre : List (LSymbol S)}
    (h : maybeParseReturnType sp s = .ok (ty, s')) (hO : OkAt (maybeParseReturnType sp) s pre ty s') :
    RetAt sp pre ty := by
  obtain ⟨x, h1, h2⟩ := Outcome.bind_eq_ok.mp h
  have hnone : (pure (none, s) : Outcome (Diag S) (Option (LType S) × LStream S)) = .ok (ty, s') → RetAt sp pre ty := by
    intro h2
    have h3 := Outcome.ok.inj h2
    have h4 : s' = s := (congrArg (·.2) h3).symm
    have h5 : ty = none := (congrArg (·.1) h3).symm
    have h6 := hO.items
    rw [h4] at h6
    exact .inl ⟨okItems_inj (t := s.items) (by simpa using h6.symm), h5⟩
  cases hx : x.symbol.sym with
  | op o =>
    rw [hx] at h2
    cases o with
    | colon =>
      dsimp only at h2
      obtain ⟨⟨t, s1⟩, h3, h4⟩ := Outcome.bind_eq_ok.mp h2
      have h5 := Outcome.ok.inj h4
      have h6 : s1 = s' := congrArg (·.2) h5
      have h7 : some t = ty := congrArg (·.1) h5
      subst h6 h7
      obtain ⟨r, hr⟩ := okL_type sp _ t s1 h3
      obtain ⟨h8, h9⟩ := type_pre sp h3 hr
      refine .inr ⟨x, r, t, ?_, hx, h8, h9, rfl⟩
      refine okItems_inj (t := s1.items) ?_
      rw [← hO.items]
      have h10 := hr.items
      obtain ⟨i, c⟩ := s
      rcases i with _ | ⟨_ | y, l⟩ <;> cases h1
      exact congrArg (List.cons (Except.ok x)) h10
    | _ => exact hnone h2
  | _ =>
    rw [hx] at h2
    exact hnone h2

/-- A type disagrees with that of an earlier declaration of the label, which `m` has. The error is at the type, or else at
that of the earlier declaration. -/
def TypeReason (sp : Spans S) (tx : Text) (m : LLabelTypes S) (p : List (LSymbol S)) (e : Diag S) : Prop :=
  (e.kind = .typeMismatch ∧ e.message = "Production rules for the same label have different return types") ∧
  ∃ a b c ts label ty old t, p = a :: b :: c :: ts ∧ Is (.op .beginProd) a.symbol ∧
    Is (.ident label) b.symbol ∧ Is (.op .endProd) c.symbol ∧ RetAt sp ts ty ∧ m.lookup label = some old ∧
    typesEqual tx (old.map (·.1)) (ty.map (·.1)) = false ∧ ty.or old = some t ∧ e.span = t.2

/-- `ProductionRule::parse` after the type. -/
def declRest (m : LLabelTypes S) (name : String) (ty : Option (LType S)) (s : LStream S) :
    Outcome (Diag S) ((List (LRule S) × LLabelTypes S) × LStream S) :=
  expectSymbolWith sp (·.isOp .arrow) "Expected `=>` to follow production name" s >>= fun p =>
    parseRule sp tx name ty p.2 >>= fun q => alts sp tx name ty [q.1] q.2 >>= fun z => pure ((z.1, m), z.2)

theorem parseDeclaration_eq (m : LLabelTypes S) : parseDeclaration sp tx m = fun s =>
    parseProductionRef sp s >>= fun p => maybeParseReturnType sp p.2 >>= fun q =>
      m.add tx p.1.1 q.1 >>= fun m => declRest sp tx m p.1.1 q.1 q.2 := rfl

theorem okL_declaration (m : LLabelTypes S) (s : LStream S) : OkL (parseDeclaration sp tx m) s := by
  rw [parseDeclaration_eq]
  refine okL_bind (okL_ref sp s) fun r s1 _ => okL_bind (okL_returnType sp s1) fun ty s2 _ => ?_
  refine okL_const (K := fun m s => declRest sp tx m r.1 ty s) fun m _ => ?_
  refine okL_bind (okL_with sp _ _ s2) fun _ s3 _ => okL_bind (okL_rule sp tx _ _ s3) fun q s4 _ => ?_
  exact okL_bind (okL_alts sp tx _ _ _ s4) fun _ _ _ => okL_pure _ _

/-- The beginning of a declaration, continued. -/
theorem decl_of {a b c : Symbol} {ts : List Symbol} {label : String} {ty : Option TokenStream}
    (ha : Is (.op .beginProd) a) (hb : Is (.ident label) b) (hc : Is (.op .endProd) c) (ht : ReturnTypeSyntax ts ty)
    {arrow : Symbol} (harrow : Is (.op .arrow) arrow) {r rest : List Symbol} {al : Alternative} {as : List Alternative}
    (hr : RuleSyntax tx r al) (hrest : TailSyntax tx rest as) :
    DeclL tx (a :: b :: c :: (ts ++ arrow :: (r ++ rest))) := by
  obtain ⟨rs, semi, h1, h2, h3⟩ := hrest.rules hr
  rw [h1]
  exact ⟨_, .mk ha hb hc ht harrow h2 h3⟩

theorem add_err {m : LLabelTypes S} {label : String} {ty : Option (LType S)} {e : Diag S}
    (h : m.add tx label ty = .err e) :
    (e.kind = .typeMismatch ∧ e.message = "Production rules for the same label have different return types") ∧ ∃ old t, m.lookup label = some old ∧
      typesEqual tx (old.map (·.1)) (ty.map (·.1)) = false ∧ ty.or old = some t ∧ e.span = t.2 := by
  unfold LLabelTypes.add at h
  cases hl : m.lookup label with
  | none =>
    rw [hl] at h
    cases h
  | some old =>
    rw [hl] at h
    dsimp only at h
    split at h
    · cases h
    · rename_i hne
      cases ho : ty.or old with
      | none =>
        rw [ho] at h
        cases h
      | some t =>
        rw [ho] at h
        have h := Outcome.err.inj h
        exact ⟨by rw [← h]; exact ⟨rfl, rfl⟩, old, t, rfl, by simpa using hne, ho, by rw [← h]⟩

theorem badL_declaration (m : LLabelTypes S) (s : LStream S) :
    BadL sp (Begins tx (DeclL tx)) (fun p e => TypeReason sp tx m p e ∨ EpsIn tx (DeclL tx) p e)
      (parseDeclaration sp tx m) s := by
  have hsemi : TailSyntax tx [sym (.op .semicolon)] [] := .stop rfl
  have harr : Is (.op .arrow) (sym (.op .arrow)) := rfl
  rw [parseDeclaration_eq]
  refine badL_bind sp (badL_ref sp s) ?_ (fun _ _ h => h.elim) (okL_ref sp s) fun r s1 pre h1 hO => ?_
  · rintro p ⟨ext, n, a, b, c, h, ha, hb, hc⟩
    refine .inl ⟨ext ++ (sym (.op .arrow) :: ([sym (.ident "x")] ++ [sym (.op .semicolon)])), ?_⟩
    rw [← List.append_assoc, h]
    exact decl_of (ts := []) tx ha hb hc .none harr (rule_exists tx) hsemi
  · obtain ⟨a, b, c, h, ha, hb, hc⟩ := ref_pre sp h1 hO
    obtain ⟨la, lb, lc, rfl⟩ : ∃ la lb lc, pre = [la, lb, lc] := by
      match pre, h with
      | [la, lb, lc], _ => exact ⟨la, lb, lc, rfl⟩
    cases h
    refine badL_bind sp (badL_returnType sp s1) ?_ (fun _ _ h => h.elim) (okL_returnType sp s1) fun ty s2 ts h2 hO2 => ?_
    · rintro p ⟨ext, ty, h⟩
      refine .inl ⟨ext ++ (sym (.op .arrow) :: ([sym (.ident "x")] ++ [sym (.op .semicolon)])), ?_⟩
      have := decl_of tx ha hb hc h harr (rule_exists tx) hsemi
      simpa using this
    · have hret := returnType_pre sp h2 hO2
      have hts := hret.syntax sp
      refine badL_const (K := fun m s => declRest sp tx m r.1 ty s) sp (fun e he => ?_) fun m' _ => ?_
      · obtain ⟨h3, old, t, h4, h5, h6, h7⟩ := add_err tx he
        exact .inl ⟨h3, la, lb, lc, ts, r.1, ty, old, t, by simp, ha, hb, hc, hret, h4, h5, h6, h7⟩
      · refine badL_bind sp (badL_with sp _ (h := .op .arrow) (by decide +kernel) s2) ?_ (fun _ _ h => h.elim)
          (okL_with sp _ _ s2) fun y s3 pre h3 hO3 => ?_
        · rintro p (rfl | ⟨k, rfl, hk⟩)
          · refine .inl ⟨sym (.op .arrow) :: ([sym (.ident "x")] ++ [sym (.op .semicolon)]), ?_⟩
            have := decl_of tx ha hb hc hts harr (rule_exists tx) hsemi
            simpa using this
          · refine .inl ⟨[sym (.ident "x")] ++ [sym (.op .semicolon)], ?_⟩
            have := decl_of tx ha hb hc hts hk (rule_exists tx) hsemi
            simpa using this
        · obtain ⟨k, rfl, hk, -⟩ := with_pre sp h3 hO3
          have hk : Is (.op .arrow) k.symbol := isOp_iff.mp hk
          have hrule : ∀ r a, RuleSyntax tx r a → ∃ tl,
              DeclL tx ((la.symbol :: lb.symbol :: lc.symbol :: syms ts) ++ k.symbol :: (r ++ tl)) := fun r a hr =>
            ⟨[sym (.op .semicolon)], decl_of tx ha hb hc hts hk hr hsemi⟩
          refine badL_bind sp (badL_rule sp tx _ _ s3) (fun p hp => ?_) (fun p e hp => .inr ?_) (okL_rule sp tx _ _ s3)
            fun q s4 pre4 h4 hO4 => ?_
          · simpa using Begins.rule (w := la.symbol :: lb.symbol :: lc.symbol :: syms ts) tx (.inl hk) hp hrule
          · simpa using EpsIn.rule (w := la :: lb :: lc :: ts) tx (.inl hk) hp hrule
          · obtain ⟨al, hal⟩ := rule_pre sp tx h4 hO4
            refine badL_bind sp (badL_alts sp tx _ _ _ s4) (fun p hp => ?_) (fun p e hp => .inr ?_)
              (okL_alts sp tx _ _ _ s4) fun _ _ _ _ _ => badL_pure sp _ _
            · have := Begins.prepend (L := DeclL tx)
                (w := la.symbol :: lb.symbol :: lc.symbol :: (syms ts ++ k.symbol :: syms pre4)) tx hp (by
                  rintro q ⟨as, hq⟩
                  exact ⟨[], by simpa using decl_of tx ha hb hc hts hk hal hq⟩)
              simpa using this
            · have := EpsIn.prepend (L := DeclL tx) (w := la :: lb :: lc :: (ts ++ k :: pre4)) tx hp (by
                  rintro q ⟨as, hq⟩
                  exact ⟨[], by simpa [syms] using decl_of tx ha hb hc hts hk hal hq⟩)
              simpa using this

theorem declaration_pre {m m' : LLabelTypes S} {s s' : LStream S} {rules : List (LRule S)} {pre : List (LSymbol S)}
    (h : parseDeclaration sp tx m s = .ok ((rules, m'), s'))
    (hO : OkAt (parseDeclaration sp tx m) s pre (rules, m') s') :
    ∃ a b c ts arrow r label ty, pre = a :: b :: c :: (ts ++ arrow :: r) ∧ Is (.op .beginProd) a.symbol ∧
      Is (.ident label) b.symbol ∧ Is (.op .endProd) c.symbol ∧ RetAt sp ts ty ∧ Is (.op .arrow) arrow.symbol ∧
      DeclL tx (syms pre) ∧ m.add tx label ty = .ok m' := by
  have hD : DeclL tx (syms pre) := by
    obtain ⟨b, hb, rfl⟩ := ok_of_rel (parseDeclaration_rel sp tx m s) h
    obtain ⟨ss, d, h1, h2, -⟩ := parseDeclaration_sound hb
    exact ⟨d, by rw [hO.syms_eq h1]; exact h2⟩
  rw [parseDeclaration_eq] at h
  obtain ⟨⟨r, s1⟩, h1, h⟩ := Outcome.bind_eq_ok.mp h
  obtain ⟨⟨ty, s2⟩, h2, h⟩ := Outcome.bind_eq_ok.mp h
  obtain ⟨m1, h3, h⟩ := Outcome.bind_eq_ok.mp h
  obtain ⟨⟨y, s3⟩, h4, h⟩ := Outcome.bind_eq_ok.mp h
  obtain ⟨⟨q, s4⟩, h5, h⟩ := Outcome.bind_eq_ok.mp h
  obtain ⟨⟨z, s5⟩, h6, h⟩ := Outcome.bind_eq_ok.mp h
  have h7 := Outcome.ok.inj h
  have h8 : s5 = s' := congrArg (·.2) h7
  have h9 : m1 = m' := congrArg (·.1.2) h7
  subst h8 h9
  obtain ⟨p1, o1⟩ := okL_ref sp s r s1 h1
  obtain ⟨p2, o2⟩ := okL_returnType sp s1 ty s2 h2
  obtain ⟨p3, o3⟩ := okL_with sp _ _ s2 y s3 h4
  obtain ⟨p4, o4⟩ := okL_rule sp tx _ _ s3 q s4 h5
  obtain ⟨p5, o5⟩ := okL_alts sp tx _ _ _ s4 z s5 h6
  obtain ⟨a, b, c, h10, ha, hb, hc⟩ := ref_pre sp h1 o1
  obtain ⟨la, lb, lc, rfl⟩ : ∃ la lb lc, p1 = [la, lb, lc] := by
    match p1, h10 with
    | [la, lb, lc], _ => exact ⟨la, lb, lc, rfl⟩
  cases h10
  obtain ⟨k, rfl, hk, -⟩ := with_pre sp h4 o3
  have hpre : pre = la :: lb :: lc :: (p2 ++ k :: (p4 ++ p5)) := by
    refine okItems_inj (t := s5.items) ?_
    rw [← hO.items, o1.items, o2.items, o3.items, o4.items, o5.items]
    simp [okItems]
  exact ⟨la, lb, lc, p2, k, p4 ++ p5, r.1, ty, hpre, ha, hb, hc, returnType_pre sp h2 o2, isOp_iff.mp hk, hD, h3⟩

theorem declarations_append {a b : List Symbol} {ds ds' : List Declaration} (h : DeclarationsSyntax tx a ds)
    (h' : DeclarationsSyntax tx b ds') : DeclarationsSyntax tx (a ++ b) (ds ++ ds') := by
  induction h with
  | nil => exact h'
  | cons h1 _ ih =>
    rw [List.append_assoc]
    exact .cons h1 ih

/-- The map has the types of the declarations that were read. -/
def Labels (sp : Spans S) (tx : Text) (w : List (LSymbol S)) (m : LLabelTypes S) : Prop :=
  ∀ label old, m.lookup label = some old → DeclaredAt sp tx w label old

theorem DeclaredAt.more {w : List (LSymbol S)} {label : String} {ty : Option (LType S)}
    (h : DeclaredAt sp tx w label ty) (v : List (LSymbol S)) : DeclaredAt sp tx (w ++ v) label ty := by
  obtain ⟨w1, w2, a, b, c, ts, arrow, r, rfl, h⟩ := h
  exact ⟨w1, w2 ++ v, a, b, c, ts, arrow, r, by simp, h⟩

theorem add_lookup {m m' : LLabelTypes S} {label : String} {ty : Option (LType S)}
    (h : m.add tx label ty = .ok m') : m' = m ∨ m' = (label, ty) :: m := by
  unfold LLabelTypes.add at h
  cases hl : m.lookup label with
  | none =>
    rw [hl] at h
    exact .inr (Outcome.ok.inj h).symm
  | some old =>
    rw [hl] at h
    dsimp only at h
    split at h
    · exact .inl (Outcome.ok.inj h).symm
    · cases ho : ty.or old with
      | none =>
        rw [ho] at h
        cases h
      | some t =>
        rw [ho] at h
        cases h

theorem Labels.step {w : List (LSymbol S)} {m m' : LLabelTypes S} (hm : Labels sp tx w m) (hw : DeclsL tx (syms w))
    {s s' : LStream S} {rules : List (LRule S)} {pre : List (LSymbol S)}
    (h : parseDeclaration sp tx m s = .ok ((rules, m'), s'))
    (hO : OkAt (parseDeclaration sp tx m) s pre (rules, m') s') :
    Labels sp tx (w ++ pre) m' ∧ DeclsL tx (syms (w ++ pre)) ∧ DeclL tx (syms pre) := by
  obtain ⟨a, b, c, ts, arrow, r, label, ty, h1, ha, hb, hc, ht, harrow, hD, hadd⟩ := declaration_pre sp tx h hO
  refine ⟨fun l old hl => ?_, ?_, hD⟩
  · rcases add_lookup tx hadd with rfl | rfl
    · exact (hm l old hl).more sp tx pre
    · rw [List.lookup_cons] at hl
      split at hl
      · rename_i he
        cases eq_of_beq he
        cases hl
        exact ⟨w, [], a, b, c, ts, arrow, r, by rw [h1, List.append_nil], hw, ha, hb, hc, ht, harrow, h1 ▸ hD⟩
      · exact (hm l old hl).more sp tx pre
  · obtain ⟨ds, hw⟩ := hw
    obtain ⟨d, hD⟩ := hD
    refine ⟨ds ++ [d], ?_⟩
    rw [syms, List.map_append]
    refine declarations_append tx hw ?_
    have := DeclarationsSyntax.cons hD (DeclarationsSyntax.nil (tx := tx))
    rwa [List.append_nil] at this

/-! ### All declarations -/

theorem declaration_consumes {m : LLabelTypes S} {s s' : LStream S} {v : List (LRule S) × LLabelTypes S}
    (h : parseDeclaration sp tx m s = .ok (v, s')) : s'.items.length < s.items.length := by
  obtain ⟨pre, hO⟩ := okL_declaration sp tx m s v s' h
  obtain ⟨a, b, c, ts, arrow, r, label, ty, h1, -⟩ := declaration_pre sp tx h hO
  rw [hO.items, h1, List.length_append]
  simp [okItems]

theorem parseDeclarations_fuel {fuel fuel' : Nat} (rules : List (LRule S)) (m : LLabelTypes S) {s : LStream S}
    (h : s.items.length < fuel) (h' : s.items.length < fuel') :
    parseDeclarations sp tx fuel rules m s = parseDeclarations sp tx fuel' rules m s := by
  induction fuel generalizing fuel' rules m s with
  | zero => omega
  | succ fuel ih =>
    cases fuel' with
    | zero => omega
    | succ fuel' =>
      unfold parseDeclarations
      split
      · rfl
      · refine bind_congr fun p hp => ?_
        have := declaration_consumes sp tx (v := p.1) (s' := p.2) hp
        exact ih _ _ (by omega) (by omega)

/-- The loop of `parse_grammar` with enough fuel. -/
def decls (rules : List (LRule S)) (m : LLabelTypes S) (s : LStream S) :
    Outcome (Diag S) (List (LRule S) × LLabelTypes S) :=
  parseDeclarations sp tx (s.items.length + 1) rules m s

theorem decls_eq (rules : List (LRule S)) (m : LLabelTypes S) : decls sp tx rules m = fun s =>
    match s.items with
    | [] => pure (rules, m)
    | _ :: _ => parseDeclaration sp tx m s >>= fun p => decls sp tx (rules ++ p.1.1) p.1.2 p.2 := by
  funext s
  obtain ⟨i, c⟩ := s
  cases i with
  | nil => rfl
  | cons i l =>
    refine bind_congr fun p hp => ?_
    have h0 := declaration_consumes sp tx (v := p.1) (s' := p.2) hp
    exact parseDeclarations_fuel sp tx _ _ h0 (by omega)

theorem badL_match {β : Type} {V : List Symbol → Prop} {Q : List (LSymbol S) → Diag S → Prop} {v : β}
    {P : LStream S → Outcome (Diag S) β} {s : LStream S} (h : BadL sp V Q P s) :
    BadL sp V Q (fun s => match s.items with | [] => pure v | _ :: _ => P s) s := by
  intro e he
  obtain ⟨i, c⟩ := s
  cases i with
  | nil => cases he
  | cons i l =>
    cases h e he with
    | item pre x rest h1 h2 h3 h4 h5 =>
      refine .item pre x rest h1 h2 h3 (fun rest' => ?_) h5
      rw [← h4 rest']
      cases pre <;> rfl
    | ended pre h1 h2 h3 h4 => exact .ended pre h1 h2 h3 h4
    | other pre rest h1 h2 => exact .other pre rest h1 h2

theorem badL_decls (rules : List (LRule S)) (m : LLabelTypes S) (w : List (LSymbol S)) (hw : DeclsL tx (syms w))
    (hm : Labels sp tx w m) (s : LStream S) :
    BadL sp (Begins tx (DeclsL tx)) (fun p e => TypeIn sp tx (w ++ p) e ∨ EpsIn tx (DeclsL tx) p e)
      (decls sp tx rules m) s := by
  generalize hn : s.items.length = n
  induction n using Nat.strongRecOn generalizing rules m w s with
  | ind n ih =>
    have hone : ∀ q, DeclL tx q → ∃ tl, DeclsL tx ([] ++ (q ++ tl)) := fun q ⟨d, hq⟩ =>
      ⟨[], [d], by simpa using DeclarationsSyntax.cons hq (DeclarationsSyntax.nil (tx := tx))⟩
    rw [decls_eq]
    refine badL_match sp (badL_bind sp (badL_declaration sp tx m s) (fun p hp => ?_) (fun p e hp => ?_)
      (okL_declaration sp tx m s) fun v s1 pre h1 hO e he => ?_)
    · exact Begins.prepend (w := []) tx hp hone
    · rcases hp with ⟨h1, a, b, c, ts, label, ty, old, t, rfl, ha, hb, hc, hty, hl, hne, ho, hs⟩ | hp
      · refine .inl ⟨h1, w, a, b, c, ts, label, ty, old, t, rfl, hw, ha, hb, hc, hty, hm _ _ hl, fun h => ?_, ho, hs⟩
        rw [typesEqual_iff.mpr h] at hne
        cases hne
      · exact .inr (EpsIn.prepend (w := []) tx hp hone)
    · obtain ⟨rs, m1⟩ := v
      obtain ⟨h2, h3, d, h4⟩ := hm.step sp tx hw h1 hO
      refine (ih s1.items.length (hn ▸ declaration_consumes sp tx h1) _ m1 (w ++ pre) h3 h2 s1 rfl e he).mono sp
        (fun p hp => ?_) fun p hp => ?_
      · exact Begins.prepend (w := syms pre) tx hp fun q ⟨ds, hq⟩ => ⟨[], _, by
          rw [List.append_nil]; exact .cons h4 hq⟩
      · rcases hp with hp | hp
        · exact .inl (by rwa [← List.append_assoc])
        · exact .inr (EpsIn.prepend (w := pre) tx hp fun q ⟨ds, hq⟩ => ⟨[], _, by
            rw [List.append_nil]; exact .cons h4 hq⟩)

/-! ### Options -/

/-- `":" value ";"`. -/
def OptL (L : List Symbol → Prop) (q : List Symbol) : Prop :=
  ∃ c v z, q = c :: (v ++ [z]) ∧ Is (.op .colon) c ∧ L v ∧ Is (.op .semicolon) z

theorem okL_remainder {α : Type} (option : String) {value : LStream S → Outcome (Diag S) (α × LStream S)}
    (hv : ∀ s, OkL value s) (s : LStream S) : OkL (parseOptionRemainder sp option value) s :=
  okL_bind (okL_with sp _ _ s) fun _ s1 _ => okL_bind (hv s1) fun _ s2 _ =>
    okL_bind (okL_with sp _ _ s2) fun _ _ _ => okL_pure _ _

theorem badL_remainder {α : Type} (option : String) {value : LStream S → Outcome (Diag S) (α × LStream S)}
    (hm : offers ("Expected \":\" to follow \"" ++ option ++ "\" keyword.") = [.op .colon])
    (hm' : offers ("Expected \";\" to follow \"" ++ option ++ "\" value.") = [.op .semicolon])
    (ho : ∀ s, OkL value s) (hb : ∀ s, BadL sp (fun p => ∃ ext, L (p ++ ext)) NoQ value s) (hne : ∃ q, L q)
    (hp : ∀ s s' v pre, value s = .ok (v, s') → OkAt value s pre v s' → L (syms pre)) (s : LStream S) :
    BadL sp (fun p => ∃ ext, OptL L (p ++ ext)) NoQ (parseOptionRemainder sp option value) s := by
  obtain ⟨q, hq⟩ := hne
  refine badL_bind sp (badL_with sp _ hm s) ?_ (fun _ _ h => h) (okL_with sp _ _ s)
    fun y s1 pre h1 hO1 => ?_
  · rintro p (rfl | ⟨k, rfl, hk⟩)
    · exact ⟨sym (.op .colon) :: (q ++ [sym (.op .semicolon)]), _, q, _, rfl, rfl, hq, rfl⟩
    · exact ⟨q ++ [sym (.op .semicolon)], _, q, _, rfl, hk, hq, rfl⟩
  obtain ⟨k, rfl, hk, -⟩ := with_pre sp h1 hO1
  refine badL_bind sp (hb s1) ?_ (fun _ _ h => h) (ho s1) fun v s2 pre h2 hO2 => ?_
  · rintro p ⟨ext, hp⟩
    exact ⟨ext ++ [sym (.op .semicolon)], k.symbol, p ++ ext, sym (.op .semicolon), by simp [syms], isOp_iff.mp hk, hp, rfl⟩
  refine badL_bind sp (badL_with sp _ hm' s2) ?_ (fun _ _ h => h) (okL_with sp _ _ s2)
    fun _ _ _ _ _ => badL_pure sp _ _
  rintro p (rfl | ⟨z, rfl, hz⟩)
  · exact ⟨[sym (.op .semicolon)], k.symbol, syms pre, sym (.op .semicolon), by simp [syms], isOp_iff.mp hk, hp _ _ _ _ h2 hO2, rfl⟩
  · exact ⟨[], k.symbol, syms pre, z, by simp [syms], isOp_iff.mp hk, hp _ _ _ _ h2 hO2, hz⟩

/-- What is read begins something in `L`. -/
abbrev Pre (L : List Symbol → Prop) (p : List Symbol) : Prop := ∃ ext, L (p ++ ext)

theorem okL_name (s : LStream S) : OkL (parseName sp) s :=
  okL_intercept _ (okL_bind (okL_with sp _ _ s) fun _ s1 _ => okL_remainder sp _ (okL_identifier sp) s1)

theorem identifier_pre {s s' : LStream S} {n : String} {pre : List (LSymbol S)} (h : parseIdentifier sp s = .ok (n, s'))
    (hO : OkAt (parseIdentifier sp) s pre n s') : ∃ x, syms pre = [x] ∧ Is (.ident n) x := by
  obtain ⟨b, hb, rfl⟩ := ok_of_rel (parseIdentifier_rel sp s) h
  obtain ⟨x, h1, h2⟩ := parseIdentifier_ok.mp hb
  exact ⟨x, hO.syms_eq (ss := [x]) h1, h2⟩

theorem badL_name (s : LStream S) : BadL sp (Pre fun q => ∃ n, NameSyntax q n) NoQ (parseName sp) s := by
  refine badL_intercept sp _ ?_ fun _ _ h => h
  refine badL_bind sp (badL_with sp _ (h := .keyword "name") (by decide +kernel) s) ?_ (fun _ _ h => h) (okL_with sp _ _ s)
    fun y s1 pre h1 hO1 => ?_
  · rintro p (rfl | ⟨k, rfl, hk⟩)
    · exact ⟨[sym (.ident "name"), sym (.op .colon), sym (.ident "x"), sym (.op .semicolon)], "x", .mk rfl rfl rfl rfl⟩
    · exact ⟨[sym (.op .colon), sym (.ident "x"), sym (.op .semicolon)], "x", .mk hk rfl rfl rfl⟩
  obtain ⟨k, rfl, hk, -⟩ := with_pre sp h1 hO1
  intro e he
  refine (badL_remainder (L := fun q => ∃ x n, q = [x] ∧ Is (.ident n) x) sp "name" (by decide +kernel)
    (by decide +kernel) (okL_identifier sp)
    (fun s => badL_identifier sp ⟨[sym (.ident "x")], _, "x", rfl, rfl⟩ (fun k n hk => ⟨[], k, n, rfl, hk⟩) s) ⟨[sym (.ident "x")], _, "x", rfl, rfl⟩
    (fun s s' v pre h hO => ?_) s1 e he).mono sp ?_ fun _ h => h
  · obtain ⟨x, h1, h2⟩ := identifier_pre sp h hO
    exact ⟨x, v, h1, h2⟩
  · rintro p ⟨ext, c, v, z, h1, h2, ⟨x, n, rfl, h3⟩, h4⟩
    refine ⟨ext, n, ?_⟩
    have : syms [k] ++ p ++ ext = [k.symbol, c, x, z] := by
      rw [List.append_assoc, h1]
      rfl
    rw [this]
    exact .mk (isIdent_iff.mp hk) h2 h3 h4

theorem badL_typeRemainder (option : String)
    (hm : offers ("Expected \":\" to follow \"" ++ option ++ "\" keyword.") = [.op .colon])
    (hm' : offers ("Expected \";\" to follow \"" ++ option ++ "\" value.") = [.op .semicolon]) (s : LStream S) :
    BadL sp (Pre (OptL fun q => ∃ ty, TypeSyntax q ty)) NoQ (parseOptionRemainder sp option (parseType sp)) s :=
  badL_remainder (L := fun q => ∃ ty, TypeSyntax q ty) sp option hm hm' (okL_type sp) (fun s => badL_type sp s) ⟨[sym (.ident "x")], _, .mk (by intro _ h; cases h)⟩
    (fun _ _ _ _ h hO => ⟨_, (type_pre sp h hO).1⟩) s

theorem option_of {k : Symbol} {keyword : String} (hk : Is (.ident keyword) k) {q : List Symbol}
    (h : OptL (fun q => ∃ ty, TypeSyntax q ty) q) : ∃ ty, TypeOptionSyntax keyword (k :: q) ty := by
  obtain ⟨c, v, z, rfl, h1, ⟨ty, h2⟩, h3⟩ := h
  exact ⟨ty, .mk hk h1 h2 h3⟩

theorem option_exists (keyword : String) : ∃ q ty, TypeOptionSyntax keyword q ty :=
  ⟨_, _, .mk (k := sym (.ident keyword)) (colon := sym (.op .colon)) (semi := sym (.op .semicolon)) rfl rfl
    (.mk (a := sym (.ident "x")) (ss := []) (by intro _ h; cases h)) rfl⟩

/-- `parse_terminal_symbol_type` after its keyword. -/
def terminalNext (x : LSymbol S) (s : LStream S) : Outcome (Diag S) (TerminalType × LStream S) :=
  if x.symbol.sym.isIdent "terminal" then
    intercept "\"terminal: `type`;\" specifies the `type` of tokens that this grammar will parse"
      (parseOptionRemainder sp "terminal" (parseType sp) s) >>= fun p => pure (.raw p.1.1, p.2)
  else if x.symbol.sym.isIdent "enum_terminal" then
    intercept "\"enum_terminal: `enum_type`;\" specifies the `enum_type` of tokens that this grammar will parse"
      (parseOptionRemainder sp "enum_terminal" (parseType sp) s) >>= fun p => pure (.enum p.1.1, p.2)
  else .err ⟨.unexpectedToken, "Expected \"terminal\" or \"enum_terminal\" option", x.span⟩

theorem parseTerminalType_eq : parseTerminalType sp = fun s : LStream S =>
    intercept "Expected \"terminal\" or \"enum_terminal\" option" (expectSymbol sp s) >>= fun p =>
      terminalNext sp p.1 p.2 := rfl

theorem okL_terminalType (s : LStream S) : OkL (parseTerminalType sp) s := by
  rw [parseTerminalType_eq]
  refine okL_bind (okL_intercept _ (okL_expect sp s)) fun x s1 _ => ?_
  unfold terminalNext
  dsimp only
  by_cases h1 : x.symbol.sym.isIdent "terminal" = true
  · simp only [h1, if_true]
    exact okL_bind (okL_intercept _ (okL_remainder sp _ (okL_type sp) s1)) fun _ _ _ => okL_pure _ _
  · simp only [h1]
    by_cases h2 : x.symbol.sym.isIdent "enum_terminal" = true
    · simp only [h2, if_true]
      exact okL_bind (okL_intercept _ (okL_remainder sp _ (okL_type sp) s1)) fun _ _ _ => okL_pure _ _
    · simp only [h2]
      exact okL_err _ _

/-- `intercept` on a symbol, followed by something that blames it. -/
theorem badL_interceptThen {β : Type} {V : List Symbol → Prop} {Q : List (LSymbol S) → Diag S → Prop} (m : String)
    {K : LSymbol S × LStream S → Outcome (Diag S) β} (hV : V []) (s : LStream S)
    (hK : ∀ x s', expectSymbol sp s = .ok (x, s') →
      (∃ e, (∀ s, K (x, s) = .err e) ∧ e.kind = .unexpectedToken ∧ e.span = x.span ∧
        Guides V e.message []) ∨
      BadL sp (fun p => V (x.symbol :: p)) (fun p e => Q (x :: p) e) (fun s => K (x, s)) s') :
    BadL sp V Q (fun s => intercept m (expectSymbol sp s) >>= K) s := by
  intro e h
  obtain ⟨i, c⟩ := s
  rcases i with _ | ⟨d | x, l⟩
  · cases h
    exact .ended [] rfl rfl hV (.inl rfl)
  · cases h
    exact .item [] _ l rfl ⟨rfl, rfl, _, String.append_assoc⟩ hV (fun _ => rfl) .error
  · cases badL_expectThen sp hV ⟨.ok x :: l, c⟩ hK e h with
    | item pre y rest h1 h2 h3 h4 h5 =>
      refine .item pre y rest h1 h2 h3 (fun rest' => ?_) h5
      rw [← h4 rest']
      cases pre with
      | nil =>
        cases h1
        rfl
      | cons z pre => rfl
    | ended pre h1 h2 h3 h4 => exact .ended pre h1 h2 h3 h4
    | other pre rest h1 h2 => exact .other pre rest h1 h2

theorem badL_terminalType (s : LStream S) :
    BadL sp (Pre fun q => ∃ t, TerminalSyntax q t) NoQ (parseTerminalType sp) s := by
  rw [parseTerminalType_eq]
  refine badL_interceptThen sp _ ?_ s fun x s1 _ => ?_
  · obtain ⟨q, ty, h⟩ := option_exists "terminal"
    exact ⟨q, _, .raw h⟩
  unfold terminalNext
  dsimp only
  by_cases h1 : x.symbol.sym.isIdent "terminal" = true
  · simp only [h1, if_true]
    refine .inr (badL_bind sp (badL_intercept sp _ (badL_typeRemainder sp "terminal" (by decide +kernel) (by decide +kernel) s1) fun _ _ h => h) ?_ (fun _ _ h => h)
      (okL_intercept _ (okL_remainder sp _ (okL_type sp) s1)) fun _ _ _ _ _ => badL_pure sp _ _)
    rintro p ⟨ext, h⟩
    obtain ⟨ty, h⟩ := option_of (isIdent_iff.mp h1) h
    exact ⟨ext, _, .raw h⟩
  · simp only [h1]
    by_cases h2 : x.symbol.sym.isIdent "enum_terminal" = true
    · simp only [h2, if_true]
      refine .inr (badL_bind sp (badL_intercept sp _ (badL_typeRemainder sp "enum_terminal" (by decide +kernel) (by decide +kernel) s1) fun _ _ h => h) ?_
        (fun _ _ h => h) (okL_intercept _ (okL_remainder sp _ (okL_type sp) s1)) fun _ _ _ _ _ => badL_pure sp _ _)
      rintro p ⟨ext, h⟩
      obtain ⟨ty, h⟩ := option_of (isIdent_iff.mp h2) h
      exact ⟨ext, _, .enum h⟩
    · simp only [h2]
      refine .inl ⟨_, fun _ => rfl, rfl, rfl, by dsimp only; decide +kernel, fun h hh k hk => ?_⟩
      have hh : h ∈ offers "Expected \"terminal\" or \"enum_terminal\" option" := hh
      rw [show offers "Expected \"terminal\" or \"enum_terminal\" option" = [.keyword "terminal", .keyword "enum_terminal"] by
        decide +kernel] at hh
      have hq : OptL (fun q => ∃ ty, TypeSyntax q ty) [sym (.op .colon), sym (.ident "x"), sym (.op .semicolon)] :=
        ⟨_, [sym (.ident "x")], _, rfl, rfl, ⟨_, .mk (by intro _ h; cases h)⟩, rfl⟩
      rcases List.mem_cons.mp hh with rfl | hh
      · obtain ⟨ty, h⟩ := option_of (show Is (.ident "terminal") k from hk) hq
        exact ⟨_, _, .raw h⟩
      · rw [List.mem_singleton] at hh
        subst hh
        obtain ⟨ty, h⟩ := option_of (show Is (.ident "enum_terminal") k from hk) hq
        exact ⟨_, _, .enum h⟩

theorem okL_interceptPeek {β : Type} (m : String) {K : LSymbol S → LStream S → Outcome (Diag S) (β × LStream S)}
    (s : LStream S) (hK : ∀ x l, s.items = .ok x :: l → OkL (K x) s) :
    OkL (fun s => intercept m (peekExpectSymbol sp s) >>= fun x => K x s) s := by
  obtain ⟨i, c⟩ := s
  rcases i with _ | ⟨d | x, l⟩ <;> intro v s' h
  · cases h
  · cases h
  · obtain ⟨pre, a1, a2, a3⟩ := okL_peek sp ⟨.ok x :: l, c⟩ hK v s' h
    refine ⟨pre, a1, a2, fun t ht => ?_⟩
    have h1 := a3 t ht
    cases hi : okItems pre ++ t with
    | nil =>
      rw [hi] at h1
      cases h1
    | cons y r =>
      rw [hi] at h1
      cases y with
      | error d => cases h1
      | ok y => exact h1

theorem badL_interceptPeek {β : Type} {V : List Symbol → Prop} {Q : List (LSymbol S) → Diag S → Prop} (m : String)
    {K : LSymbol S → LStream S → Outcome (Diag S) β} (hV : V []) (s : LStream S)
    (hK : ∀ x l, s.items = .ok x :: l → BadL sp V Q (K x) s) :
    BadL sp V Q (fun s => intercept m (peekExpectSymbol sp s) >>= fun x => K x s) s := by
  intro e h
  obtain ⟨i, c⟩ := s
  rcases i with _ | ⟨d | x, l⟩
  · cases h
    exact .ended [] rfl rfl hV (.inl rfl)
  · cases h
    exact .item [] _ l rfl ⟨rfl, rfl, _, String.append_assoc⟩ hV (fun _ => rfl) .error
  · cases badL_peek sp hV ⟨.ok x :: l, c⟩ hK e h with
    | item pre y rest h1 h2 h3 h4 h5 =>
      refine .item pre y rest h1 h2 h3 (fun rest' => ?_) h5
      rw [← h4 rest']
      cases pre with
      | nil =>
        cases h1
        rfl
      | cons z pre => rfl
    | ended pre h1 h2 h3 h4 => exact .ended pre h1 h2 h3 h4
    | other pre rest h1 h2 => exact .other pre rest h1 h2

/-- `maybe_parse_error_type` after looking at the symbol. -/
def errorNext (x : LSymbol S) (s : LStream S) : Outcome (Diag S) (Option TokenStream × LStream S) :=
  if x.symbol.sym.isIdent "error_type" then
    intercept ("\"error_type: `type`;\" specifies the `type` of errors that either the " ++
      "input stream and/or constructors may yield.") (parseOptionRemainder sp "error_type" (parseType sp) (take s)) >>=
      fun p => pure (some p.1.1, p.2)
  else pure (none, s)

theorem maybeParseErrorType_eq : maybeParseErrorType sp = fun s : LStream S =>
    intercept "Unexpected end of stream" (peekExpectSymbol sp s) >>= fun x => errorNext sp x s := rfl

theorem okL_errorType (s : LStream S) : OkL (maybeParseErrorType sp) s := by
  rw [maybeParseErrorType_eq]
  refine okL_interceptPeek sp _ s fun x l hs => ?_
  unfold errorNext
  by_cases h1 : x.symbol.sym.isIdent "error_type" = true
  · simp only [h1, if_true]
    exact okL_take (K := fun s => intercept _ (parseOptionRemainder sp "error_type" (parseType sp) s) >>=
      fun p => pure (some p.1.1, p.2)) hs
      (okL_bind (okL_intercept _ (okL_remainder sp _ (okL_type sp) _)) fun _ _ _ => okL_pure _ _)
  · simp only [h1]
    exact okL_pure _ _

theorem badL_errorType (s : LStream S) :
    BadL sp (Pre fun q => ∃ t, ErrorSyntax q t) NoQ (maybeParseErrorType sp) s := by
  rw [maybeParseErrorType_eq]
  refine badL_interceptPeek sp _ ⟨[], _, .none⟩ s fun x l hs => ?_
  unfold errorNext
  by_cases h1 : x.symbol.sym.isIdent "error_type" = true
  · simp only [h1, if_true]
    refine badL_take (K := fun s => intercept _ (parseOptionRemainder sp "error_type" (parseType sp) s) >>=
      fun p => pure (some p.1.1, p.2)) sp hs
      (badL_bind sp (badL_intercept sp _ (badL_typeRemainder sp "error_type" (by decide +kernel) (by decide +kernel) _) fun _ _ h => h) ?_ (fun _ _ h => h)
        (okL_intercept _ (okL_remainder sp _ (okL_type sp) _)) fun _ _ _ _ _ => badL_pure sp _ _)
    rintro p ⟨ext, h⟩
    obtain ⟨ty, h⟩ := option_of (isIdent_iff.mp h1) h
    exact ⟨ext, _, .some h⟩
  · simp only [h1]
    exact badL_pure sp _ _

/-! ### Files -/

/-- The errors that are not errors of syntax: those of `TypeIn`, `EpsIn` and of the table. -/
inductive FileQ (sp : Spans S) (tx : Text) (p : List (LSymbol S)) (e : Diag S) : Prop
  | types (o w : List (LSymbol S)) (eq : p = o ++ w) (options : OptionsL (syms o)) (reason : TypeIn sp tx w e)
  | epsilon (reason : EpsIn tx (FileL tx) p e)
  | table (te : LRTableError Sym String) (kind : e.kind = .table te) (span : e.span = sp.callSite)

/-- `parse_grammar` after the options. -/
def grammarEnd (fuel : Nat) (name : String) (tt : TerminalType) (et : Option TokenStream)
    (p : List (LRule S) × LLabelTypes S) : Outcome (Diag S) (GrammarInfo × List (LRule S)) :=
  (IndexedGrammar.build ⟨(p.1.map LRule.erase).map ARule.toLr⟩).mapErr (tableError sp) >>= fun ig =>
    (LRTable.build fuel ig).mapErr (tableError sp) >>= fun table =>
      pure (⟨name, tt, et, p.2.map fun p => (p.1, p.2.map (·.1)), p.1.map LRule.erase, ig, table⟩, p.1)

theorem parseGrammar_eq (fuel : Nat) : parseGrammar sp tx fuel = fun s => parseName sp s >>= fun n =>
    parseTerminalType sp n.2 >>= fun t => maybeParseErrorType sp t.2 >>= fun e =>
      decls sp tx [] [] e.2 >>= grammarEnd sp fuel n.1 t.1 e.1 := rfl

theorem mapErr_err {ε ε' α : Type} {f : ε → ε'} {x : Outcome ε α} {e : ε'} (h : x.mapErr f = .err e) :
    ∃ e', x = .err e' ∧ e = f e' := by
  cases x with
  | err e' => exact ⟨e', rfl, (Outcome.err.inj h).symm⟩
  | _ => cases h

theorem bind_err {ε α β : Type} {x : Outcome ε α} {f : α → Outcome ε β} {e : ε} (h : x >>= f = .err e) :
    x = .err e ∨ ∃ a, x = .ok a ∧ f a = .err e := by
  cases x with
  | ok a => exact .inr ⟨a, rfl, h⟩
  | err e' => exact .inl (by rw [Outcome.err.inj h])
  | _ => cases h

theorem grammarEnd_err {fuel : Nat} {name : String} {tt : TerminalType} {et : Option TokenStream}
    {p : List (LRule S) × LLabelTypes S} {e : Diag S} (h : grammarEnd sp fuel name tt et p = .err e) :
    ∃ te, e.kind = .table te ∧ e.span = sp.callSite := by
  rcases bind_err h with h | ⟨ig, -, h⟩
  · obtain ⟨te, -, rfl⟩ := mapErr_err h
    exact ⟨te, rfl, rfl⟩
  · rcases bind_err h with h | ⟨_, -, h⟩
    · obtain ⟨te, -, rfl⟩ := mapErr_err h
      exact ⟨te, rfl, rfl⟩
    · cases h

theorem badL_then {β γ : Type} {V : List Symbol → Prop} {Q : List (LSymbol S) → Diag S → Prop}
    {P : LStream S → Outcome (Diag S) β} {K : β → Outcome (Diag S) γ} {s : LStream S} (hP : BadL sp V Q P s)
    (hK : ∀ v e, P s = .ok v → K v = .err e → Q [] e) : BadL sp V Q (fun s => P s >>= K) s := by
  intro e h
  rcases bind_err h with h | ⟨v, h1, h2⟩
  · cases hP e h with
    | item pre x rest h1 h2 h3 h4 h5 => exact .item pre x rest h1 h2 h3 (fun rest' => by rw [h4 rest']; rfl) h5
    | ended pre h1 h2 h3 h4 => exact .ended pre h1 h2 h3 h4
    | other pre rest h1 h2 => exact .other pre rest h1 h2
  · exact .other [] s.items rfl (hK v e h1 h2)

theorem name_pre {s s' : LStream S} {n : String} {pre : List (LSymbol S)} (h : parseName sp s = .ok (n, s'))
    (hO : OkAt (parseName sp) s pre n s') : NameSyntax (syms pre) n := by
  obtain ⟨b, hb, rfl⟩ := ok_of_rel (parseName_rel sp s) h
  obtain ⟨ss, h1, h2⟩ := parseName_ok.mp hb
  rw [hO.syms_eq h1]
  exact h2

theorem terminalType_pre {s s' : LStream S} {t : TerminalType} {pre : List (LSymbol S)}
    (h : parseTerminalType sp s = .ok (t, s')) (hO : OkAt (parseTerminalType sp) s pre t s') :
    TerminalSyntax (syms pre) t := by
  obtain ⟨b, hb, rfl⟩ := ok_of_rel (parseTerminalType_rel sp s) h
  obtain ⟨ss, h1, h2⟩ := parseTerminalType_ok.mp hb
  rw [hO.syms_eq h1]
  exact h2

theorem errorType_pre {s s' : LStream S} {t : Option TokenStream} {pre : List (LSymbol S)}
    (h : maybeParseErrorType sp s = .ok (t, s')) (hO : OkAt (maybeParseErrorType sp) s pre t s') :
    ErrorSyntax (syms pre) t := by
  obtain ⟨b, hb, rfl⟩ := ok_of_rel (maybeParseErrorType_rel sp s) h
  obtain ⟨ss, h1, h2⟩ := maybeParseErrorType_sound hb
  rw [hO.syms_eq h1]
  exact h2

theorem file_of {n t e ds : List Symbol} {name : String} {tt : TerminalType} {et : Option TokenStream}
    (hn : NameSyntax n name) (ht : TerminalSyntax t tt) (he : ErrorSyntax e et) (hd : DeclsL tx ds) :
    FileL tx (n ++ (t ++ (e ++ ds))) := by
  obtain ⟨decls, hd⟩ := hd
  exact ⟨⟨name, tt, et, decls⟩, .mk hn ht he hd⟩

theorem badL_grammar (fuel : Nat) (s : LStream S) :
    BadL sp (Begins tx (FileL tx)) (FileQ sp tx) (parseGrammar sp tx fuel) s := by
  obtain ⟨tq, tty, htq⟩ := option_exists "terminal"
  rw [parseGrammar_eq]
  refine badL_bind sp (badL_name sp s) ?_ (fun _ _ h => h.elim) (okL_name sp s) fun n s1 pn h1 o1 => ?_
  · rintro p ⟨ext, n, h⟩
    refine .inl ⟨ext ++ (tq ++ ([] ++ [])), ?_⟩
    rw [← List.append_assoc]
    exact file_of tx h (.raw htq) .none ⟨_, .nil⟩
  have hn := name_pre sp h1 o1
  refine badL_bind sp (badL_terminalType sp s1) ?_ (fun _ _ h => h.elim) (okL_terminalType sp s1) fun t s2 pt h2 o2 => ?_
  · rintro p ⟨ext, t, h⟩
    refine .inl ⟨ext ++ ([] ++ []), ?_⟩
    have := file_of tx hn h .none ⟨_, .nil⟩
    simpa using this
  have ht := terminalType_pre sp h2 o2
  refine badL_bind sp (badL_errorType sp s2) ?_ (fun _ _ h => h.elim) (okL_errorType sp s2) fun et s3 pe h3 o3 => ?_
  · rintro p ⟨ext, et, h⟩
    refine .inl ⟨ext, ?_⟩
    have := file_of tx hn ht h ⟨_, .nil⟩
    simpa using this
  have he := errorType_pre sp h3 o3
  have hfile : ∀ q, DeclsL tx q → ∃ tl, FileL tx (syms (pn ++ (pt ++ pe)) ++ (q ++ tl)) := fun q hq =>
    ⟨[], by simpa [syms] using file_of tx hn ht he hq⟩
  refine badL_then sp ?_ fun v e _ h => ?_
  · intro e h
    refine (badL_decls sp tx [] [] [] ⟨_, .nil⟩ (by intro _ _ h; cases h) s3 e h).mono sp (fun p hp => ?_) fun p hp => ?_
    · have := Begins.prepend tx hp hfile
      simpa [syms] using this
    · rcases hp with hp | hp
      · exact .types (pn ++ (pt ++ pe)) p (by simp) ⟨syms pn, syms pt, syms pe, _, _, _, by simp [syms], hn, ht, he⟩ hp
      · refine .epsilon ?_
        have := EpsIn.prepend tx hp hfile
        simpa using this
  · obtain ⟨te, h4, h5⟩ := grammarEnd_err sp h
    exact .table te h4 h5

/-! ### Files have no errors of syntax -/

theorem parseDeclaration_mismatch {ss : List Symbol} {d : Declaration} (h : DeclarationSyntax tx ss d) {m : LabelTypes}
    {e : MacroError} (hm : m.add tx d.label d.type = .err e) (s' : SymStream) :
    Verif.parseDeclaration tx m (Verif.items ss ++ s') = .err e := by
  cases h with
  | @mk a b c arrow semi ts rs label ty as ha hb hc ht harrow hrs hsemi =>
    have e' : Verif.items (a :: b :: c :: (ts ++ arrow :: (rs ++ [semi]))) ++ s' =
        .ok a :: .ok b :: .ok c :: (Verif.items ts ++ (.ok arrow :: (Verif.items (rs ++ [semi]) ++ s'))) := by
      simp [Verif.items]
    have h3 : Verif.parseProductionRef (.ok a :: .ok b :: .ok c ::
        (Verif.items ts ++ (.ok arrow :: (Verif.items (rs ++ [semi]) ++ s')))) =
        .ok (label, Verif.items ts ++ (.ok arrow :: (Verif.items (rs ++ [semi]) ++ s'))) :=
      parseProductionRef_ok.mpr ⟨a, b, c, rfl, ha, hb, hc⟩
    simp only at hm
    unfold Verif.parseDeclaration
    rw [e', h3]
    simp only [Outcome.ok_bind]
    rw [maybeParseReturnType_complete ht rfl harrow]
    simp only [Outcome.ok_bind, hm]
    rfl

theorem add_outcome (m : LabelTypes) (label : String) (ty : Option TokenStream) :
    (∃ m', m.add tx label ty = .ok m') ∨ m.add tx label ty = .err .typeMismatch := by
  unfold LabelTypes.add
  cases hl : m.lookup label with
  | none => exact .inl ⟨_, rfl⟩
  | some old =>
    dsimp only
    split
    · exact .inl ⟨_, rfl⟩
    · rename_i hne
      cases ho : ty.or old with
      | none =>
        cases ty <;> cases old <;> simp_all [typesEqual]
      | some t => exact .inr rfl

theorem declarations_kind {ss : List Symbol} {ds : List Declaration} (h : DeclarationsSyntax tx ss ds) {fuel : Nat}
    (hf : ds.length < fuel) (rules : List ARule) (m : LabelTypes) {e : MacroError}
    (he : Verif.parseDeclarations tx fuel rules m (Verif.items ss) = .err e) : e = .typeMismatch := by
  induction h generalizing fuel rules m with
  | nil =>
    cases fuel with
    | zero => cases hf
    | succ fuel => cases he
  | @cons s ss d ds hd hds ih =>
    cases fuel with
    | zero => cases hf
    | succ fuel =>
      have h1 : Verif.parseDeclaration tx m (Verif.items (s ++ ss)) >>= (fun p =>
          Verif.parseDeclarations tx fuel (rules ++ p.1) p.2.1 p.2.2) = .err e := by
        rw [← he]
        cases hs : Verif.items (s ++ ss) with
        | nil =>
          have := DeclarationSyntax_length hd
          simp [Verif.items, this] at hs
        | cons i l => rfl
      rw [show Verif.items (s ++ ss) = Verif.items s ++ Verif.items ss by simp [Verif.items]] at h1
      rcases add_outcome tx m d.label d.type with ⟨m', hm⟩ | hm
      · rw [parseDeclaration_complete hd hm] at h1
        exact ih (by simpa using hf) _ _ h1
      · rw [parseDeclaration_mismatch tx hd hm] at h1
        exact (Outcome.err.inj h1).symm

/-- What has the form of a file is not rejected for its syntax. -/
theorem file_kind {ss : List Symbol} {f : GrammarFile} (h : FileSyntax tx ss f) {fuel : Nat} {e : MacroError}
    (he : Verif.parseGrammar tx fuel (Verif.items ss) = .err e) :
    e = .unexpectedEnd ∨ e = .typeMismatch ∨ ∃ te, e = .table te := by
  have hend : ∀ {n t et} {s : SymStream} {fuel' : Nat}, (Verif.parseDeclarations tx fuel' [] [] s >>= fun p =>
      ((IndexedGrammar.build ⟨p.1.map ARule.toLr⟩).mapErr MacroError.table >>= fun ig =>
        (LRTable.build fuel ig).mapErr MacroError.table >>= fun table =>
          (pure (⟨n, t, et, p.2, p.1, ig, table⟩ : GrammarInfo) : Outcome MacroError GrammarInfo))) = .err e →
      Verif.parseDeclarations tx fuel' [] [] s = .err e ∨ ∃ te, e = .table te := by
    intro n t et s fuel' h
    rcases bind_err h with h | ⟨p, -, h⟩
    · exact .inl h
    · right
      rcases bind_err h with h | ⟨ig, -, h⟩
      · obtain ⟨te, -, rfl⟩ := mapErr_err h
        exact ⟨te, rfl⟩
      · rcases bind_err h with h | ⟨_, -, h⟩
        · obtain ⟨te, -, rfl⟩ := mapErr_err h
          exact ⟨te, rfl⟩
        · cases h
  cases h with
  | @mk n t e' ds f hn ht he' hd =>
    have h1 : Verif.items (n ++ (t ++ (e' ++ ds))) =
        Verif.items n ++ (Verif.items t ++ (Verif.items e' ++ Verif.items ds)) := by simp [Verif.items]
    rw [h1] at he
    unfold Verif.parseGrammar at he
    rw [parseName_ok.mpr ⟨n, rfl, hn⟩] at he
    simp only [Outcome.ok_bind] at he
    rw [parseTerminalType_ok.mpr ⟨t, rfl, ht⟩] at he
    simp only [Outcome.ok_bind] at he
    have hdone : Verif.maybeParseErrorType (Verif.items e' ++ Verif.items ds) = .ok (f.error, Verif.items ds) ∨
        Verif.maybeParseErrorType (Verif.items e' ++ Verif.items ds) = .err .unexpectedEnd := by
      by_cases hne : f.declarations = []
      · rw [hne] at hd
        cases hd
        generalize f.error = et at he'
        cases he' with
        | none => exact .inr rfl
        | @some ss ty h =>
          left
          obtain ⟨k, r, rfl, hk⟩ := TypeOptionSyntax_head h
          have h1 : Verif.parseOptionRemainder Verif.parseType (Verif.items r ++ Verif.items []) = _ :=
            (typeOption_cons hk).mpr ⟨k :: r, rfl, h⟩
          have h2 := isIdent_iff.mpr hk
          simp only [Verif.maybeParseErrorType, Verif.items, List.map_cons, List.cons_append,
            Verif.peekExpectSymbol, Outcome.ok_bind, h2, if_true, List.tail_cons]
          rw [h1]
          rfl
      · exact .inl (maybeParseErrorType_complete he' (C37.declarations_head hd hne))
    rcases hdone with h2 | h2
    · rw [h2] at he
      simp only [Outcome.ok_bind] at he
      rcases hend he with h3 | h3
      · refine .inr (.inl (declarations_kind tx hd ?_ _ _ h3))
        have := DeclarationsSyntax_length hd
        simp only [Verif.items, List.length_map]
        omega
      · exact .inr (.inr h3)
    · rw [h2] at he
      exact .inl (Outcome.err.inj he).symm

end Verif.Located

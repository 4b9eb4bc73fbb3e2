import Verif.Proof.LocatedGen
import Verif.Props.Located
import Verif.Props.Macro

/-!
# C66: errors in constructors and terminals point at what is wrong
-/

set_option autoImplicit false
set_option linter.unusedSectionVars false

namespace Verif
open Spec Located

namespace C66

variable {S : Type} (sp : Spans S) (fx : Foreign) (o : HashOrder) (lex : Lexer) (tx : Text)

/-- **C66.** Places and texts of errors do not change what is accepted and which error there is. -/
theorem same_outcomes (fuel : Nat) (T : LTokens S) :
    (∀ r, Located.buildGrammar sp fx o lex tx fuel T = .ok r ↔ Verif.buildGrammar o lex tx fuel T.erase = .ok r) ∧
    ∀ k, (∃ e, Located.buildGrammar sp fx o lex tx fuel T = .err e ∧ e.kind = k) ↔
      Verif.buildGrammar o lex tx fuel T.erase = .err k := by
  have h := buildGrammar_rel sp fx (o := o) (lex := lex) tx fuel T
  generalize Located.buildGrammar sp fx o lex tx fuel T = x at h
  generalize Verif.buildGrammar o lex tx fuel T.erase = y at h
  constructor
  · intro r
    constructor
    · rintro rfl
      cases y with
      | ok b => rw [show r = b from h]
      | _ => exact h.elim
    · rintro rfl
      cases x with
      | ok a => rw [show a = r from h]
      | _ => exact h.elim
  · intro k
    constructor
    · rintro ⟨e, rfl, rfl⟩
      cases y with
      | err b => rw [show b = e.kind from h]
      | _ => exact h.elim
    · rintro rfl
      cases x with
      | err a => exact ⟨a, rfl, (show k = a.kind from h).symm⟩
      | _ => exact h.elim

variable {sp fx o lex tx}
variable {T : LTokens S} {fuel : Nat} {e : Diag S} {gi : GrammarInfo} {rules : List (LRule S)}

/-- The error is in the constructor `{ body }` of the rule: `body` is there in the input, between braces, and the error is at
the first reference that does not denote a node of the rule. The message tells the number of nodes if the number in the
reference is too large, and the number if it is that of epsilon. -/
def InBlock (T : LTokens S) (r : LRule S) (e : Diag S) : Prop :=
  ∃ (T1 T2 : LTokens S) (open_ : S) (b : LBlock S), r.block = some b ∧ T = T1.append (.group .brace b.span open_ b.body T2) ∧
    BadRef (r.rule.map (·.1)) b.body e.kind e.span ∧ Tells (r.rule.map (·.1)) e

/-- The constructor of the rule is missing: the error is at the whole rule (where spans can be joined; otherwise at its first
node). -/
def NoBlock (sp : Spans S) (r : LRule S) (e : Diag S) : Prop :=
  r.block = none ∧ r.returnType.isSome ∧ e.kind = .constructorMissing ∧
    ∃ n m ns, r.rule = n :: m :: ns ∧ e.span = (m :: ns).foldl (fun a x => sp.merge a x.2) n.2

/-- A terminal that is no literal. -/
def BadTerminal (lex : Lexer) (fx : Foreign) (s : Sym) (e : Diag S) : Prop :=
  (s.paren ≠ .none ∧ e.kind = .patternForLiteral ∧ e.message = "Cannot cast UserDefinedSymbol with pattern to literal") ∨
    (s.paren = .none ∧ lex.isLiteral s.name = false ∧ e.kind = .badLiteral ∧ e.message = fx.lexError)

theorem badRef_kind {rule : List ANode} {t : LTokens S} {k : MacroError} {s : S} (h : BadRef rule t k s) :
    k = .unknownLabel ∨ k = .ambiguousLabel ∨ k = .badIndex ∨ k = .indexOutOfRange ∨ k = .indexOfEpsilon ∨
      k = .danglingNumberSign := by
  induction h <;> simp_all

/-- There is one first wrong reference: the place of the error is determined by the rule and the constructor. -/
theorem badRef_unique {rule : List ANode} {t : LTokens S} {k k' : MacroError} {s s' : S} (h : BadRef rule t k s)
    (h' : BadRef rule t k' s') : k = k' ∧ s = s' := by
  obtain ⟨m, h1⟩ := substituteVars_complete ⟨"", fun _ => ""⟩ h
  obtain ⟨m', h2⟩ := substituteVars_complete ⟨"", fun _ => ""⟩ h'
  rw [h1] at h2
  cases h2
  exact ⟨rfl, rfl⟩

/-- A constructor has a wrong reference exactly if not all of its references denote nodes of the rule. -/
theorem badRef_iff {rule : List ANode} {t : LTokens S} : (∃ k s, BadRef rule t k s) ↔ ¬ Fine rule t.erase := by
  rw [← fine_iff ⟨"", fun _ => ""⟩]
  constructor
  · rintro ⟨k, s, h⟩ ⟨out, h1⟩
    obtain ⟨m, h2⟩ := substituteVars_complete ⟨"", fun _ => ""⟩ h
    rw [h1] at h2
    cases h2
  · intro h
    have hrel := substituteVars_rel ⟨"", fun _ => ""⟩ (SubstMap.build rule) rule t
    cases hx : Located.substituteVars ⟨"", fun _ => ""⟩ (SubstMap.build rule) rule t with
    | ok a => exact (h ⟨a, hx⟩).elim
    | err d => exact ⟨_, _, (substituteVars_err _ hx).1⟩
    | _ =>
      rw [hx] at hrel
      rcases SubstMap.substituteVars_safe rule t.erase with ⟨out, h1⟩ | ⟨k, h1⟩ <;> rw [h1] at hrel <;> exact hrel.elim

/-- **C66.** An error of the code generator is in the constructor of a rule (at the first wrong reference), or it is that the
constructor of a rule is missing (at the rule), or a terminal of the file is no literal (at the whole invocation). The rule is
written in the file. -/
theorem code_error (hj : JointOk T.erase) (hp : Located.parseGrammar sp tx fuel (stream sp tx T) = .ok (gi, rules))
    (h : Located.generateParser sp fx o lex gi rules = .err e) :
    ∃ ss f, Lexes tx T.erase ss ∧ FileSyntax tx ss f ∧ C37.Reads gi f ∧
      ((∃ (k : Nat) (r : LRule S), rules[k]? = some r ∧ f.rules[k]? = some r.erase ∧ RuleIn sp tx (Located.tokenize sp tx .empty T) r ∧
          (InBlock T r e ∨ NoBlock sp r e)) ∨
        e.span = sp.callSite ∧ (∃ ty, f.terminal = .raw ty) ∧ ∃ s, f.Terminal s ∧ BadTerminal lex fx s e) := by
  have hp' : Verif.parseGrammar tx fuel (Verif.tokenize tx .empty T.erase) = .ok gi :=
    ((C65.same_outcomes sp tx fuel T).1 gi).mp ⟨rules, hp⟩
  have hprod : gi.productionRules = rules.map LRule.erase := by
    have h1 := parseGrammar_rel sp tx fuel (stream sp tx T)
    rw [show (stream sp tx T).erase = Verif.tokenize tx .empty T.erase from tokenize_erase sp tx T .empty, hp, hp'] at h1
    exact h1.2
  obtain ⟨ss, f, hl, hf, -, hr, -, -⟩ := C37.accepted_is_file hj hp'
  refine ⟨ss, f, hl, hf, hr, ?_⟩
  rcases (generateParser_errs sp fx).of e h with ⟨k, hk, rfl⟩ | ⟨k, hk⟩
  · right
    obtain ⟨F, kt, -, hin, -⟩ := genIn_of hj hp'
    have hsat := hin.generateParser_sat (o := o) (lex := lex)
    have hrel := generateParser_rel sp fx (o := o) (lex := lex) hprod
    rw [h] at hrel
    cases hg : Verif.generateParser o lex gi with
    | err k' =>
      rw [hg] at hrel hsat
      have : k' = k := hrel
      subst this
      refine ⟨rfl, ?_⟩
      rcases hsat with ⟨hty, s, hs, he⟩ | ⟨j, hj', hu, he⟩
      · refine ⟨?_, s, (hr.terminal_iff s).mp hs, ?_⟩
        · rw [← hr.terminal]
          cases ht : gi.terminalType with
          | raw ty => exact ⟨ty, rfl⟩
          | enum ty => rw [ht] at hty; cases hty
        · unfold Sym.asLiteral at he
          split at he
          · rename_i hpn
            cases he
            exact .inl ⟨hpn, rfl, rfl⟩
          · rename_i hpn
            split at he
            · cases he
            · rename_i hlit
              cases he
              exact .inr ⟨Decidable.not_not.mp hpn, Bool.eq_false_iff.mpr hlit, rfl, rfl⟩
      · exfalso
        have hrel2 := buildConstructor_rel sp fx hprod j
        rw [he] at hrel2
        cases hc : Located.buildConstructor sp fx rules j with
        | err d =>
          rw [hc] at hrel2
          have h1 : k' = d.kind := hrel2
          obtain ⟨r, -, ⟨b, -, ⟨-, h2, -⟩ | ⟨-, h2, -⟩⟩ | ⟨-, -, -, h2, -⟩⟩ := constructor_err sp fx hc
          · rw [← h1] at h2
            subst h2
            rcases hk with (hk | hk) | ⟨te, hk⟩ <;> cases hk
          · rw [← h1] at h2
            rcases badRef_kind h2 with h3 | h3 | h3 | h3 | h3 | h3 <;> subst h3 <;>
              rcases hk with (hk | hk) | ⟨te, hk⟩ <;> cases hk
          · rw [← h1] at h2
            subst h2
            rcases hk with (hk | hk) | ⟨te, hk⟩ <;> cases hk
        | _ => rw [hc] at hrel2; exact hrel2.elim
    | _ => rw [hg] at hrel; exact hrel.elim
  · left
    obtain ⟨r, hrk, hd⟩ := constructor_err sp fx hk
    have hin : RuleIn sp tx (Located.tokenize sp tx .empty T) r :=
      grammar_rules sp tx hp r (List.mem_of_getElem? hrk)
    refine ⟨k, r, hrk, ?_, hin, ?_⟩
    · rw [← hr.rules, hprod, List.getElem?_map, hrk]
      rfl
    · rcases hd with ⟨b, hb, hd⟩ | ⟨h1, h2, h3, h4, h5⟩
      · left
        obtain ⟨p, q0, q, blk, z, rest, hitems, -, -, -, -, hblk⟩ := hin
        match blk, hblk with
        | [], hblk =>
          rw [hb] at hblk
          cases hblk
        | [y], hblk =>
          obtain ⟨d, i, hy, hb'⟩ := hblk
          rw [hb] at hb'
          cases hb'
          have hmem : (Except.ok y : LItem S) ∈ Located.tokenize sp tx .empty T := by
            rw [hitems]
            refine List.mem_append_left _ (List.mem_map.mpr ⟨y, ?_, rfl⟩)
            simp
          obtain ⟨hd', T1, open_, T2, hT⟩ := group_place sp tx hmem hy
          rcases hd with ⟨h1, -⟩ | ⟨-, h2, h3⟩
          · exact (h1 hd').elim
          · exact ⟨T1, T2, open_, _, hb, hT, h2, h3⟩
        | _ :: _ :: _, hblk => exact hblk.elim
      · right
        have hne : r.rule ≠ [] := by
          obtain ⟨p, q0, q, blk, z, rest, hitems, -, -, hn, -⟩ := hin
          exact hn
        refine ⟨h1, h2, h4, ?_⟩
        match hr' : r.rule, hne, h3 with
        | [_], _, h3 => exact (h3 rfl).elim
        | n :: m :: ns, _, _ =>
          refine ⟨n, m, ns, rfl, ?_⟩
          rw [h5, hr']
          rfl

end C66

namespace C66
open GrammarSample C65

/-! ### Concrete cases -/

def foreign : Foreign := ⟨"lex error", fun t => "invalid digit found in string " ++ t⟩

def lexer : Lexer := ⟨fun s => s.toList.head? == some '\'', fun s => s.toList.head? != some '\''⟩

/-- The error of a file that is read: its kind, its span and its message. -/
def diagnosis (T : LTokens Nat) : Option (MacroError × Nat × String) :=
  match Located.parseGrammar positions tx 100 (stream positions tx T) with
  | .ok (gi, rules) =>
    match Located.generateParser positions foreign .id lexer gi rules with
    | .err e => some (e.kind, e.span, e.message)
    | _ => none
  | _ => none

theorem diagnosed {T : LTokens Nat} {k : MacroError} {n : Nat} {m : String} (h : diagnosis T = some (k, n, m)) :
    ∃ gi rules, Located.parseGrammar positions tx 100 (stream positions tx T) = .ok (gi, rules) ∧
      Located.generateParser positions foreign .id lexer gi rules = .err ⟨k, m, n⟩ := by
  unfold diagnosis at h
  split at h
  · rename_i gi rules h1
    split at h
    · rename_i e h2
      obtain ⟨k', m', n'⟩ := e
      cases h
      exact ⟨gi, rules, h1, h2⟩
    · cases h
  · cases h

/-- `<S>: u8 => <T> 'a' { body }; <T>: u8 => 'b' { 0 };`; the tokens of the body are numbered from 50. -/
def withBody (body : LTokens Nat) : LTokens Nat :=
  (number 0 (header ++ label "S" ++ [.p ':', .i "u8"] ++ arrow ++ label "T" ++ [.l "'a'"])).append
    (.group .brace 20 20 body
      ((number 21 ([.p ';'] ++ label "T" ++ [.p ':', .i "u8"] ++ arrow ++ [.l "'b'"])).append
        (.group .brace 40 40 (number 41 [.l "0"]) (number 45 [.p ';']))))

/-- `{ f(#T, #1, #U) }` -/
def unknown : LTokens Nat :=
  withBody (.ident "f" 50 (.group .paren 51 51
    (number 52 [.p '#', .i "T", .p ',', .p '#', .l "1", .p ',', .p '#', .i "U"]) .nil))

theorem unknown_err : diagnosis unknown =
    some (.unknownLabel, 59, "Unrecognized production label: not found in rule") := by decide +kernel

/-- `{ #T + #2 }` -/
def outOfRange : LTokens Nat := withBody (number 50 [.p '#', .i "T", .p '+', .p '#', .l "2"])

theorem outOfRange_err : diagnosis outOfRange =
    some (.indexOutOfRange, 54, "Index is out of range of rules, expected within [0, 2)") := by decide +kernel

/-- `{ #T # }` -/
def dangling : LTokens Nat := withBody (number 50 [.p '#', .i "T", .p '#'])

theorem dangling_err : diagnosis dangling =
    some (.danglingNumberSign, 52, "`#` must be followed by an identifier or index") := by decide +kernel

/-- `<S>: u8 => 'a' 'b';` -/
def missing : LTokens Nat :=
  number 0 (header ++ label "S" ++ [.p ':', .i "u8"] ++ arrow ++ [.l "'a'", .l "'b'", .p ';'])

theorem missing_err : diagnosis missing =
    some (.constructorMissing, 15, "Must provide a constructor for rules with more than 1 node") := by decide +kernel

/-- `<S> => Foo;` with tokens of type `char`. -/
def notLiteral : LTokens Nat := number 0 (header ++ label "S" ++ arrow ++ [.i "Foo", .p ';'])

theorem notLiteral_err : diagnosis notLiteral = some (.badLiteral, 1000, "lex error") := by decide +kernel

/-- The hypotheses of `code_error` are met. -/
example : ∃ r, InBlock unknown r ⟨.unknownLabel, "Unrecognized production label: not found in rule", 59⟩ := by
  obtain ⟨gi, rules, h1, h2⟩ := diagnosed unknown_err
  obtain ⟨ss, f, -, -, -, ⟨k, r, -, -, -, h | h⟩ | ⟨h, -⟩⟩ := code_error (jointOk_of (by decide +kernel)) h1 h2
  · exact ⟨r, h⟩
  · exact absurd h.2.2.1 (by decide)
  · exact absurd h (by decide)

example : ∃ r, InBlock outOfRange r
    ⟨.indexOutOfRange, "Index is out of range of rules, expected within [0, 2)", 54⟩ := by
  obtain ⟨gi, rules, h1, h2⟩ := diagnosed outOfRange_err
  obtain ⟨ss, f, -, -, -, ⟨k, r, -, -, -, h | h⟩ | ⟨h, -⟩⟩ := code_error (jointOk_of (by decide +kernel)) h1 h2
  · exact ⟨r, h⟩
  · exact absurd h.2.2.1 (by decide)
  · exact absurd h (by decide)

example : ∃ r, InBlock dangling r ⟨.danglingNumberSign, "`#` must be followed by an identifier or index", 52⟩ := by
  obtain ⟨gi, rules, h1, h2⟩ := diagnosed dangling_err
  obtain ⟨ss, f, -, -, -, ⟨k, r, -, -, -, h | h⟩ | ⟨h, -⟩⟩ := code_error (jointOk_of (by decide +kernel)) h1 h2
  · exact ⟨r, h⟩
  · exact absurd h.2.2.1 (by decide)
  · exact absurd h (by decide)

example : ∃ r, NoBlock positions r
    ⟨.constructorMissing, "Must provide a constructor for rules with more than 1 node", 15⟩ := by
  obtain ⟨gi, rules, h1, h2⟩ := diagnosed missing_err
  obtain ⟨ss, f, -, -, -, ⟨k, r, -, -, -, h | h⟩ | ⟨h, -⟩⟩ := code_error (jointOk_of (by decide +kernel)) h1 h2
  · obtain ⟨_, _, _, _, _, _, h3, _⟩ := h
    rcases badRef_kind h3 with h | h | h | h | h | h <;> cases h
  · exact ⟨r, h⟩
  · exact absurd h (by decide)

example : ∃ s, BadTerminal lexer foreign s (⟨.badLiteral, "lex error", 1000⟩ : Diag Nat) := by
  obtain ⟨gi, rules, h1, h2⟩ := diagnosed notLiteral_err
  obtain ⟨ss, f, -, -, -, ⟨k, r, -, -, -, h | h⟩ | ⟨-, -, s, -, h⟩⟩ := code_error (jointOk_of (by decide +kernel)) h1 h2
  · obtain ⟨_, _, _, _, _, _, h3, _⟩ := h
    rcases badRef_kind h3 with h | h | h | h | h | h <;> cases h
  · exact absurd h.2.2.1 (by decide)
  · exact ⟨s, h⟩

end C66
end Verif

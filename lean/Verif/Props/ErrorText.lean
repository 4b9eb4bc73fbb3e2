import Verif.Proof.ErrorText
import Verif.Props.Macro

/-!
# C64: the text of an error says what is wrong
-/

set_option linter.unusedSectionVars false
set_option autoImplicit false

namespace Verif.C64
open Spec ErrorText

section
variable {T L : Type} [DecidableEq T] [DecidableEq L] {g g' : Grammar T L} {fuel fuel' : Nat} {e e' : LRTableError T L}

/-- The library reports `e` for the grammar. -/
def Fails (g : Grammar T L) (fuel : Nat) (e : LRTableError T L) : Prop :=
  IndexedGrammar.build g = .err e ∨ ∃ ig, IndexedGrammar.build g = .ok ig ∧ LRTable.build fuel ig = .err e

/-- The same error, where unreachable labels may be listed in another order. The order in messages is that of the hash
map of labels. -/
inductive Reordered : LRTableError T L → LRTableError T L → Prop
  | same (e : LRTableError T L) : Reordered e e
  | perm {ls ls' : List L} : ls.Perm ls' → Reordered (.notConnected ls) (.notConnected ls')

/-- A token of the grammar. -/
def HasToken (g : Grammar T L) (t : T) : Prop := ∃ r ∈ g.productions, .terminal (.token t) ∈ r.rule

/-- A label of the grammar. -/
def HasLabel (g : Grammar T L) (l : L) : Prop := ∃ r ∈ g.productions, r.symbol = l ∨ .production l ∈ r.rule

/-- What errors mention. -/
theorem mentions (he : EpsilonLast g) (h : Fails g fuel e) :
    (∀ t ∈ lookahead e, t = .eos ∨ ∃ a, t = .token a ∧ HasToken g a) ∧ (∀ l ∈ labels e, HasLabel g l) ∧
      e ≠ .notConnected [] := by
  rcases h with h | ⟨ig, hg, h⟩
  · obtain ⟨ps⟩ := g
    cases ps with
    | nil =>
      have : e = .emptyGrammar := by
        have h1 := C10.empty_refused (T := T) (L := L)
        rw [h1] at h
        exact (Outcome.err.inj h).symm
      subst this
      exact ⟨fun t ht => (by cases ht), fun l hl => (by cases hl), by simp⟩
    | cons root rest =>
      have key : ∀ {e1 : LRTableError T L}, IndexedGrammar.build ⟨root :: rest⟩ = .err e1 → e = e1 := fun h1 => by
        rw [h1] at h
        exact (Outcome.err.inj h).symm
      rcases IndexedGrammar.buildFromGrammar_spec root rest with
        ⟨pre, p, post, hr, -, ⟨hp, e1⟩ | ⟨hp, hp', e1⟩⟩ | ⟨-, l, ⟨p, hp, hl⟩, hq, e1⟩ |
        ⟨-, -, ls, e1, hne, -, hls⟩ | ⟨h1, h2, h3, ig, e1, -⟩
      · cases key (C10.build_of e1)
        exact ⟨fun t ht => (by cases ht), fun l hl => (by cases hl), by simp⟩
      · cases key (C10.build_of e1)
        exact ⟨fun t ht => (by cases ht), fun l hl => (by cases hl), by simp⟩
      · cases key (C10.build_of e1)
        refine ⟨fun t ht => (by cases ht), fun l' hl' => ?_, by simp⟩
        simp only [labels, List.mem_singleton] at hl'
        subst hl'
        exact ⟨p, hp, .inr hl⟩
      · cases key (C10.build_of e1)
        refine ⟨fun t ht => (by cases ht), fun l hl => ?_, by simpa using hne⟩
        obtain ⟨⟨p, hp, h1⟩, -⟩ := (hls l).mp hl
        exact ⟨p, hp, .inl h1⟩
      · simp [IndexedGrammar.build, e1] at h
  · obtain ⟨⟨F, hF⟩, -⟩ := C08.build_terminates g ig hg
    have henc := (IndexedGrammar.build_ok hg).1
    obtain ⟨F', hF', hres⟩ := FirstTable.build_spec (ε := LRTableError T L) henc.wf
    rw [hF] at hF'
    cases hF'
    obtain ⟨γ, t, tok, htok, h1⟩ := C13.conflict_error_names g ig F fuel e hg he hF h
    rw [seqFirst_eq] at h1
    have hne : t ≠ .epsilon := by
      rcases h1 with ⟨i, j, -, -, h2, -⟩ | ⟨i, -, h2, -⟩ <;> exact (h2.lt henc.wf hres.wf).2
    have ht : tok = .eos ∨ ∃ a, tok = .token a ∧ HasToken g a := by
      cases t with
      | epsilon => exact absurd rfl hne
      | eos => cases htok; exact .inl rfl
      | token k =>
        simp only [Vocab.idToToken, Outcome.bind_eq_ok, Outcome.index_eq_ok] at htok
        obtain ⟨s, h2, h3⟩ := htok
        cases h3
        exact .inr ⟨s, rfl, IndexedGrammar.build_used hg s (List.mem_of_getElem? h2)⟩
    rcases h1 with ⟨i, j, -, rfl, -⟩ | ⟨i, rfl, -⟩
    · refine ⟨fun t ht' => ?_, fun l hl => (by cases hl), by simp⟩
      cases ht'
      exact ht
    · refine ⟨fun t ht' => ?_, fun l hl => (by cases hl), by simp⟩
      cases ht'
      exact ht

theorem Reordered.lookahead {p : LRTableError T L} (h : Reordered e p) : lookahead p = lookahead e := by
  cases h <;> rfl

theorem Reordered.labels {p : LRTableError T L} (h : Reordered e p) (l : L) : l ∈ labels p ↔ l ∈ labels e := by
  cases h with
  | same => rfl
  | perm h => exact h.symm.mem_iff

theorem Reordered.ne {p : LRTableError T L} (h : Reordered e p) (hn : e ≠ .notConnected []) :
    p ≠ .notConnected [] := by
  cases h with
  | same => exact hn
  | perm h =>
    intro e1
    cases e1
    exact hn (by rw [h.eq_nil])

theorem Reordered.join {p : LRTableError T L} (h : Reordered e p) (h' : Reordered e' p) : Reordered e e' := by
  cases h with
  | same =>
    cases h' with
    | same => exact .same _
    | perm h => exact .perm h.symm
  | perm h =>
    cases h' with
    | same => exact .perm h
    | perm h' => exact .perm (h.trans h'.symm)

/-- **C64.** Whatever tokens and labels look like, the text shows what kind of error it is. -/
theorem text_kind {token : T → List Char} {label : L → List Char} (h : text token label e = text token label e') :
    kind e = kind e' := (kind_eq_of_text h).1

/-- **C64, partial.** Errors for two grammars that are printed alike are equal: they name the same rules, the same
lookahead and the same labels, if the tokens and labels of the two grammars do not look alike, no token looks like the
end of the input and no label contains a comma. -/
theorem text_unique_partial {token : T → List Char} {label : L → List Char} (he : EpsilonLast g) (he' : EpsilonLast g')
    (hf : Fails g fuel e) (hf' : Fails g' fuel' e')
    (ht : ∀ t t', HasToken g t → HasToken g' t' → token t = token t' → t = t')
    (hd : ∀ t, HasToken g t ∨ HasToken g' t → token t ≠ ['$'])
    (hl : ∀ l l', HasLabel g l → HasLabel g' l' → label l = label l' → l = l')
    (hc : ∀ l, HasLabel g l ∨ HasLabel g' l → ',' ∉ label l)
    {p p' : LRTableError T L} (hp : Reordered e p) (hp' : Reordered e' p')
    (h : text token label p = text token label p') : Reordered e e' := by
  obtain ⟨h1, h2, h3⟩ := mentions he hf
  obtain ⟨h1', h2', h3'⟩ := mentions he' hf'
  have : p = p' := by
    refine text_inj ?_ ?_ ?_ (hp.ne h3) (hp'.ne h3') h
    · intro t hm t' hm' heq
      rw [hp.lookahead] at hm
      rw [hp'.lookahead] at hm'
      rcases h1 t hm with rfl | ⟨a, rfl, ha⟩ <;> rcases h1' t' hm' with rfl | ⟨a', rfl, ha'⟩
      · rfl
      · exact absurd heq.symm (hd a' (.inr ha'))
      · exact absurd heq (hd a (.inl ha))
      · rw [ht a a' ha ha' heq]
    · intro l hm l' hm' heq
      exact hl l l' (h2 l ((hp.labels l).mp hm)) (h2' l' ((hp'.labels l').mp hm')) heq
    · rintro l (hm | hm)
      · exact hc l (.inl (h2 l ((hp.labels l).mp hm)))
      · exact hc l (.inr (h2' l ((hp'.labels l).mp hm)))
  subst this
  exact hp.join hp'

end

/-! ### The macro -/

section
variable {tx : Text}

/-- What is needed of characters: quotes, dollar signs, commas, angle brackets and parentheses are not part of
identifiers. -/
structure Plain (tx : Text) : Prop where
  quote : tx.alphabetic '\'' = false
  dollar : tx.alphanumeric '$' = false
  comma : tx.alphanumeric ',' = false
  paren : tx.alphanumeric '(' = false

theorem ident_not_mem {c : Char} (h : tx.alphanumeric c = false) (hu : c ≠ '_') {s : String} (hs : Identifier tx s) :
    c ∉ s.toList := fun hm => by
  rcases hs.2 c hm with h1 | h1
  · rw [h] at h1; cases h1
  · exact hu h1

/-- How a symbol goes on after its name. -/
def tail (s : Sym) : List Char :=
  match s.paren with
  | .pattern pat => '(' :: (pat.toList ++ [')'])
  | .wildcard => ['(', '.', '.', ')']
  | .none => []

theorem sym_eq (s : Sym) : sym s = s.name.toList ++ tail s := rfl

theorem toList_inj {a b : String} (h : a.toList = b.toList) : a = b := by
  rw [← String.ofList_toList (s := a), h, String.ofList_toList]

/-- A symbol that can be written, with a pattern that is not printed as a wildcard. -/
def Written (tx : Text) (s : Sym) : Prop :=
  (Identifier tx s.name ∨ (s.paren = .none ∧ s.name.toList.head? = some '\'')) ∧ s.paren ≠ .pattern ".."

theorem ident_head (hx : Plain tx) {s : String} (hs : Identifier tx s) {x : List Char} :
    (s.toList ++ x).head? ≠ some '\'' := by
  obtain ⟨⟨c, rest, hc, h1⟩, -⟩ := hs
  rw [hc]
  simp only [List.cons_append, List.head?_cons, ne_eq, Option.some.injEq]
  rintro rfl
  rcases h1 with h1 | h1
  · rw [hx.quote] at h1; cases h1
  · revert h1; decide

/-- Symbols that are printed alike are equal. -/
theorem sym_inj (hx : Plain tx) {s s' : Sym} (hs : Written tx s) (hs' : Written tx s') (h : sym s = sym s') :
    s = s' := by
  rw [sym_eq, sym_eq] at h
  obtain ⟨n, p⟩ := s
  obtain ⟨n', p'⟩ := s'
  obtain ⟨h1, h2⟩ := hs
  obtain ⟨h1', h2'⟩ := hs'
  simp only at h1 h2 h1' h2' h
  have hnp : ∀ {m : String}, Identifier tx m → '(' ∉ m.toList := fun hm => ident_not_mem hx.paren (by decide) hm
  rcases h1 with h1 | ⟨rfl, h1⟩ <;> rcases h1' with h1' | ⟨rfl, h1'⟩
  · have inj : ∀ {a b : List Char}, n.toList ++ '(' :: a = n'.toList ++ '(' :: b → n = n' ∧ a = b := fun h => by
      obtain ⟨h3, h4⟩ := append_cons_inj (hnp h1) (hnp h1') h
      exact ⟨toList_inj h3, h4⟩
    have dots : ∀ {q : String}, q.toList ++ [')'] = ['.', '.', ')'] → q = ".." := fun {q} h => by
      have : q.toList = ['.', '.'] := List.append_cancel_right (bs := [')']) h
      exact toList_inj (by rw [this]; decide)
    cases p <;> cases p' <;> simp only [tail, List.append_nil] at h
    case pattern.pattern q q' =>
      obtain ⟨rfl, h4⟩ := inj h
      rw [toList_inj (List.append_cancel_right h4)]
    case pattern.wildcard q =>
      obtain ⟨-, h4⟩ := inj h
      exact absurd (by rw [dots h4]) h2
    case pattern.none q => exact absurd (by rw [← h]; simp) (hnp h1')
    case wildcard.pattern q =>
      obtain ⟨-, h4⟩ := inj h
      exact absurd (by rw [dots h4.symm]) h2'
    case wildcard.wildcard => rw [(inj h).1]
    case wildcard.none => exact absurd (by rw [← h]; simp) (hnp h1')
    case none.pattern q => exact absurd (by rw [h]; simp) (hnp h1)
    case none.wildcard => exact absurd (by rw [h]; simp) (hnp h1)
    case none.none => rw [toList_inj h]
  · refine absurd ?_ (ident_head hx h1 (x := tail ⟨n, p⟩))
    rw [h]
    simpa [tail] using h1'
  · refine absurd ?_ (ident_head hx h1' (x := tail ⟨n', p'⟩))
    rw [← h]
    simpa [tail] using h1
  · simp only [tail, List.append_nil] at h
    rw [toList_inj h]

theorem sym_ne_dollar (hx : Plain tx) {s : Sym} (hs : Written tx s) : sym s ≠ ['$'] := by
  rw [sym_eq]
  obtain ⟨h1 | ⟨h0, h1⟩, -⟩ := hs
  · obtain ⟨⟨c, rest, hc, -⟩, h3⟩ := h1
    intro h
    rw [hc] at h
    have : c = '$' := (List.cons.inj h).1
    subst this
    rcases h3 '$' (by rw [hc]; simp) with h4 | h4
    · rw [hx.dollar] at h4; cases h4
    · revert h4; decide
  · intro h
    cases hn : s.name.toList with
    | nil => rw [hn] at h1; cases h1
    | cons c rest =>
      rw [hn] at h h1
      have e1 := (List.cons.inj h).1
      have e2 : c = '\'' := by simpa using h1
      rw [e1] at e2
      revert e2; decide

theorem refName_inj {a b : String} (h : refName a = refName b) : a = b :=
  toList_inj (List.append_cancel_right (List.cons.inj h).2)

/-- Labels are identifiers. -/
theorem label_written {t : TokenStream} {ss : List Symbol} {f : GrammarFile} (hl : Lexes tx t ss)
    (hf : FileSyntax tx ss f) {l : String} (h : HasLabel f.grammar l) : Identifier tx l := by
  have ident : ∀ {x : Symbol} {name : String}, x ∈ ss → Is (.ident name) x → Identifier tx name := by
    intro x name hx hi
    have := lexes_symbol hl hx
    rw [hi] at this
    generalize x.tokens = u at this
    cases this with
    | ident h => exact h
    | word h _ => exact h
  have declared : ∀ {ss' : List Symbol} {ds : List Declaration}, DeclarationsSyntax tx ss' ds → ss' ⊆ ss →
      ∀ d ∈ ds, Identifier tx d.label := by
    intro ss' ds h
    induction h with
    | nil => intro _ d hd; cases hd
    | cons h1 _ ih =>
      intro hsub d hd
      rcases List.mem_cons.mp hd with rfl | hd
      · cases h1 with
        | mk _ hi _ _ _ _ _ => exact ident (hsub (by simp)) hi
      · exact ih (fun x hx => hsub (List.mem_append.mpr (.inr hx))) d hd
  obtain ⟨r, hr, h⟩ := h
  obtain ⟨q, hq, rfl⟩ := List.mem_map.mp hr
  obtain ⟨d, hd, hq⟩ := List.mem_flatMap.mp hq
  obtain ⟨a, ha, rfl⟩ := List.mem_map.mp hq
  cases hf with
  | mk _ _ _ hds =>
    rcases h with rfl | h
    · exact declared hds (fun x hx => by simp [hx]) d hd
    · obtain ⟨n, hn, e⟩ := List.mem_map.mp h
      cases n with
      | epsilon => cases e
      | symbol _ => cases e
      | production name =>
        cases e
        obtain ⟨w, hw, hn⟩ := declarations_syntax hds hd ha hn
        cases hn with
        | production _ hi _ => 
          refine ident ?_ hi
          simp only [List.mem_append]
          exact .inr (.inr (.inr (hw (by simp))))

theorem token_written {t : TokenStream} {ss : List Symbol} {f : GrammarFile} (hl : Lexes tx t ss)
    (hf : FileSyntax tx ss f) (hw : ∀ s, f.Terminal s → s.paren ≠ .pattern "..") {s : Sym}
    (h : HasToken f.grammar s) : Written tx s := by
  obtain ⟨r, hr, h⟩ := h
  obtain ⟨q, hq, rfl⟩ := List.mem_map.mp hr
  obtain ⟨n, hn, e⟩ := List.mem_map.mp h
  have ht : f.Terminal s := by
    cases n with
    | epsilon => cases e
    | production _ => cases e
    | symbol _ => cases e; exact ⟨q, hq, hn⟩
  exact ⟨terminal_written hl hf ht, hw s ht⟩

/-- **C64.** The message of the macro about the grammar of a file shows which error it is: if two files have the same
message, they have the same error. Only the order of unreachable labels is not determined. -/
theorem macro_text_unique (hx : Plain tx) {t t' : TokenStream} {ss ss' : List Symbol} {f f' : GrammarFile}
    (hl : Lexes tx t ss) (hf : FileSyntax tx ss f) (hl' : Lexes tx t' ss') (hf' : FileSyntax tx ss' f')
    (hw : ∀ s, f.Terminal s ∨ f'.Terminal s → s.paren ≠ .pattern "..")
    (hc : ConsistentTypes tx f.declarations) (hc' : ConsistentTypes tx f'.declarations)
    {fuel fuel' : Nat} {e e' p p' : LRTableError Sym String}
    (he : parseGrammar tx fuel (tokenize tx .empty t) = .err (.table e))
    (he' : parseGrammar tx fuel' (tokenize tx .empty t') = .err (.table e'))
    (hp : Reordered e p) (hp' : Reordered e' p') (h : tableMessage p = tableMessage p') : Reordered e e' := by
  have fails : ∀ {t : TokenStream} {ss : List Symbol} {f : GrammarFile} {fuel : Nat} {e : LRTableError Sym String},
      Lexes tx t ss → FileSyntax tx ss f → ConsistentTypes tx f.declarations →
      parseGrammar tx fuel (tokenize tx .empty t) = .err (.table e) → Fails f.grammar fuel e := by
    intro t ss f fuel e hl hf hc he
    by_cases hne : f.declarations = []
    · rw [tokenize_complete hl] at he
      have hg : f.grammar = ⟨[]⟩ := by simp [GrammarFile.grammar, GrammarFile.rules, hne]
      cases hf with
      | @mk n t er ds f hn ht her hd =>
        rw [hne] at hd
        cases hd
        have h1 : parseName (items (n ++ (t ++ (er ++ [])))) = .ok (f.name, items (t ++ (er ++ []))) :=
          parseName_ok.mpr ⟨n, by simp [items], hn⟩
        have h2 : parseTerminalType (items (t ++ (er ++ []))) = .ok (f.terminal, items (er ++ [])) :=
          parseTerminalType_ok.mpr ⟨t, by simp [items], ht⟩
        unfold parseGrammar at he
        simp only [h1, Outcome.ok_bind, h2] at he
        generalize f.error = fe at her
        cases her with
        | none => cases he
        | @some _ ty h =>
          obtain ⟨k, r, rfl, hk⟩ := TypeOptionSyntax_head h
          have h3 : parseOptionRemainder parseType (items r ++ []) = .ok (ty, []) :=
            (typeOption_cons hk).mpr ⟨k :: r, rfl, h⟩
          have h4 : maybeParseErrorType (items (k :: r ++ [])) = .ok (some ty, []) := by
            unfold maybeParseErrorType
            have h5 := isIdent_iff.mpr hk
            simp only [List.append_nil] at h3 ⊢
            simp only [items, List.map_cons, peekExpectSymbol, Outcome.ok_bind, h5, if_true, List.tail_cons]
            simp only [items] at h3
            rw [h3]
            rfl
          rw [h4] at he
          cases he
          left
          rw [hg]
          rfl
    · obtain ⟨s1, s2, ds, h1, h2, h3, hd⟩ := C37.syntax_parses hl hf hne
      obtain ⟨m, hm⟩ := addAll_complete (ds0 := []) mapOf_nil (by simpa using hc)
      have h4 := parseDeclarations_complete hd (fuel := (items ds).length + 1)
        (by have := DeclarationsSyntax_length hd; simp only [items, List.length_map]; omega) [] hm
      unfold parseGrammar at he
      simp only [h1, Outcome.ok_bind, h2, h3, h4, List.nil_append] at he
      have heq : (⟨(f.declarations.flatMap Declaration.rules).map ARule.toLr⟩ : Grammar Sym String) = f.grammar := rfl
      rw [heq] at he
      unfold Fails
      cases hb : IndexedGrammar.build f.grammar with
      | err e1 =>
        rw [hb] at he
        cases he
        exact .inl rfl
      | ok ig =>
        rw [hb] at he
        simp only [Outcome.mapErr, Outcome.ok_bind] at he
        refine .inr ⟨ig, rfl, ?_⟩
        cases hb2 : LRTable.build fuel ig <;> rw [hb2] at he <;> cases he
        rfl
      | panic => rw [hb] at he; cases he
      | ub => rw [hb] at he; cases he
      | timeout => rw [hb] at he; cases he
  have tok := fun {s} => token_written (s := s) hl hf (fun s hs => hw s (.inl hs))
  have tok' := fun {s} => token_written (s := s) hl' hf' (fun s hs => hw s (.inr hs))
  refine text_unique_partial (C47.epsilonAlone_file hf).last (C47.epsilonAlone_file hf').last (fails hl hf hc he)
    (fails hl' hf' hc' he') (fun s s' hs hs' => sym_inj hx (tok hs) (tok' hs')) ?_
    (fun _ _ _ _ => refName_inj) ?_ hp hp' h
  · rintro s (hs | hs)
    · exact sym_ne_dollar hx (tok hs)
    · exact sym_ne_dollar hx (tok' hs)
  · have comma : ∀ {l : String}, Identifier tx l → ',' ∉ refName l := by
      intro l hi hm
      simp only [refName, List.mem_cons, List.mem_append, List.not_mem_nil, or_false] at hm
      rcases hm with hm | hm | hm
      · revert hm; decide
      · exact ident_not_mem hx.comma (by decide) hi hm
      · revert hm; decide
    rintro l (h1 | h1)
    · exact comma (label_written hl hf h1)
    · exact comma (label_written hl' hf' h1)

end
end Verif.C64

namespace Verif.C64
open Spec ErrorText

/-! ### Messages that do not tell -/

/-- `S -> A; A -> B; A -> C; B -> x; C -> x`, with `last` after A in the first rule. -/
def twice (last : List (Node Char Nat)) : Grammar Char Nat :=
  ⟨[⟨0, .production 1 :: last⟩, ⟨1, [.production 2]⟩, ⟨1, [.production 3]⟩, ⟨2, [.terminal (.token 'x')]⟩,
    ⟨3, [.terminal (.token 'x')]⟩]⟩

/-- The error for a grammar, if there is one. -/
def failure {T L : Type} [DecidableEq T] [DecidableEq L] (g : Grammar T L) : Option (LRTableError T L) :=
  match IndexedGrammar.build g with
  | .err e => some e
  | .ok ig =>
    match LRTable.build 100 ig with
    | .err e => some e
    | _ => none
  | _ => none

theorem fails_of {T L : Type} [DecidableEq T] [DecidableEq L] {g : Grammar T L} {e : LRTableError T L}
    (h : failure g = some e) : Fails g 100 e := by
  unfold failure at h
  unfold Fails
  split at h
  · rename_i h1
    cases h
    exact .inl h1
  · rename_i ig h1
    refine .inr ⟨ig, h1, ?_⟩
    split at h
    · rename_i h2
      cases h
      exact h2
    · cases h
  · cases h

/-- **C64 is false in general.** A grammar of characters can use `$`. Whether a conflict is about this character or about
the end of the input cannot be seen from the message. -/
theorem text_unique_refuted : ∃ (g g' : Grammar Char Nat) (e e' : LRTableError Char Nat),
    EpsilonLast g ∧ EpsilonLast g' ∧ Fails g 100 e ∧ Fails g' 100 e' ∧ lookahead e = some .eos ∧
      lookahead e' = some (.token '$') ∧
      text (fun c => [c]) Display.decimal e = text (fun c => [c]) Display.decimal e' := by
  refine ⟨twice [], twice [.terminal (.token '$')], .reduceConflict 4 3 .eos, .reduceConflict 4 3 (.token '$'),
    by unfold EpsilonLast; decide, by unfold EpsilonLast; decide, fails_of (by decide +kernel),
    fails_of (by decide +kernel), rfl, rfl, rfl⟩

/-- `S -> a; B -> b; C -> c`. -/
def apart : Grammar Char Nat :=
  ⟨[⟨0, [.terminal (.token 'a')]⟩, ⟨1, [.terminal (.token 'b')]⟩, ⟨2, [.terminal (.token 'c')]⟩]⟩

/-- **C64.** The order of unreachable labels in the message, which is the order in a hash map, makes a difference: one
grammar can have two messages. -/
theorem text_order : ∃ e p, Fails apart 100 e ∧ Reordered e p ∧
    text (fun c => [c]) Display.decimal e ≠ text (fun c => [c]) Display.decimal p :=
  ⟨.notConnected [1, 2], .notConnected [2, 1], fails_of (by decide +kernel), .perm (.swap ..), by decide +kernel⟩

/-! ### The hypotheses can be met -/

/-- The hypotheses of `text_unique_partial`, with texts of tokens and labels that can be told apart. -/
example : EpsilonLast (twice []) ∧ Fails (twice []) 100 (.reduceConflict 4 3 .eos) ∧
    (∀ t, HasToken (twice []) t → [t] ≠ ['$']) ∧ ∀ l, HasLabel (twice []) l → ',' ∉ Display.decimal l := by
  refine ⟨by unfold EpsilonLast; decide, fails_of (by decide +kernel), ?_,
    fun l _ => Display.not_mem_decimal (by decide)⟩
  rintro t ⟨r, hr, h⟩
  simp only [twice, List.mem_cons, List.not_mem_nil, or_false] at hr
  rcases hr with rfl | rfl | rfl | rfl | rfl <;> simp at h <;> subst h <;> decide

/-- `<S> => <A>; <A> => Num(..) | Num(..);`. -/
def bad : GrammarFile := { GrammarSample.file with
  declarations := [⟨"S", none, [([.production "A"], none)]⟩,
    ⟨"A", none, [([.symbol ⟨"Num", .wildcard⟩], none), ([.symbol ⟨"Num", .wildcard⟩], none)]⟩] }

theorem bad_printable : C37.PrintableFile GrammarSample.tx GrammarSample.unprint bad where
  keywords := GrammarSample.printable.keywords
  name := GrammarSample.printable.name
  terminal := GrammarSample.printable.terminal
  error := GrammarSample.printable.error
  declarations := by
    intro d hd
    simp only [bad, List.mem_cons, List.not_mem_nil, or_false] at hd
    rcases hd with rfl | rfl
    · refine ⟨GrammarSample.ident_of (by decide +kernel), by simp, ?_, by simp⟩
      intro a ha
      simp only [List.mem_cons, List.not_mem_nil, or_false] at ha
      subst ha
      refine ⟨?_, by simp, by simp [Alone], by simp⟩
      intro n hn
      simp only [List.mem_cons, List.not_mem_nil, or_false] at hn
      subst hn
      exact GrammarSample.ident_of (by decide +kernel)
    · refine ⟨GrammarSample.ident_of (by decide +kernel), by simp, ?_, by simp⟩
      intro a ha
      simp only [List.mem_cons, List.not_mem_nil, or_false, or_self] at ha
      subst ha
      refine ⟨?_, by simp, by simp [Alone], by simp⟩
      intro n hn
      simp only [List.mem_cons, List.not_mem_nil, or_false] at hn
      subst hn
      exact GrammarSample.ident_of (by decide +kernel)

/-- The hypotheses of `macro_text_unique`. -/
example : Plain GrammarSample.tx ∧ ∃ t ss, Lexes GrammarSample.tx t ss ∧ FileSyntax GrammarSample.tx ss bad ∧
    (∀ s, bad.Terminal s → s.paren ≠ .pattern "..") ∧ ConsistentTypes GrammarSample.tx bad.declarations ∧
    parseGrammar GrammarSample.tx 100 (tokenize GrammarSample.tx .empty t) = .err (.table (.reduceConflict 2 1 .eos)) := by
  obtain ⟨ss, h1, h2⟩ := (C37.file_print bad_printable).2
  refine ⟨⟨by decide, by decide, by decide, by decide⟩, _, ss, h1, h2, ?_, ?_, ?_⟩
  · rintro s ⟨r, hr, h⟩
    simp only [GrammarFile.rules, bad, Declaration.rules, List.flatMap_cons, List.flatMap_nil, List.map_cons, List.map_nil,
      List.cons_append, List.nil_append, List.append_nil, List.mem_cons, List.not_mem_nil, or_false] at hr
    rcases hr with rfl | rfl | rfl <;> simp at h <;> subst h <;> decide
  · intro d hd d' hd' _
    simp only [bad, List.mem_cons, List.not_mem_nil, or_false] at hd hd'
    rcases hd with rfl | rfl <;> rcases hd' with rfl | rfl <;> trivial
  · have h : (match parseGrammar GrammarSample.tx 100 (tokenize GrammarSample.tx .empty
        (C37.fileTokens GrammarSample.unprint bad)) with
        | .err e => e == .table (.reduceConflict 2 1 .eos)
        | _ => false) = true := by decide +kernel
    split at h
    · rename_i e he
      rw [he, eq_of_beq h]
    · cases h

end Verif.C64

import Verif.Tests.Text

/-!
# The integration tests of the repository, run on the model

These examples are not proofs of properties: they are the assertions that the developers wrote in `/repo/tests`,
transcribed and evaluated on the model of the macro and of the runtime library. The grammar files are the text of the
tests. What constructors do is given by the text of their bodies after the macro has replaced `#name` and `#index`.
Large tests are evaluated by Lean's interpreter (`#guard`), the others by the kernel.
-/

set_option autoImplicit false

namespace Verif.Tests

/-! ## tests/test_simple.rs -/

def testSimple : TokenStream := grammar! "
    name: Test;
    terminal: char;

    <S>: u32 => <A> { #A };
    <A>: u32 => <A> '+' <P> {
      #A + #P
    } | <P> {
      #P
    };
    <P>: u32 => <P> '*' <V> {
      #P * #V
    } | <V> {
      #V
    };
    <V>: u32 => <V> <dig> {
      10 * #V + #dig.to_digit(10).unwrap()
    } | <dig> {
      #dig.to_digit(10).unwrap()
    };
    <dig>: char =>
          '0' | '1' | '2' | '3' | '4' | '5' | '6' | '7' | '8' | '9';
  "

/-- A number, or the value of a digit. -/
def num : Option (Val Nat Nat) → Nat
  | some (.user v) => v
  | some (.tok (.lit c)) => c - 48
  | _ => 0

/-- Arithmetic. -/
def arithmetic : Sem Nat Nat String Unit where
  litVal := charLit
  pat _ _ := false
  body _ t env w :=
    let v := match print t with
      | "__v0 " => some (num (env 0))
      | "__v0 + __v2 " => some (num (env 0) + num (env 2))
      | "__v0 * __v2 " => some (num (env 0) * num (env 2))
      | "10 * __v0 + __v1 . to_digit ( 10 ) . unwrap ( ) " => some (10 * num (env 0) + num (env 1))
      | "__v0 . to_digit ( 10 ) . unwrap ( ) " => some (num (env 0))
      | "2 " => some 2
      | "3 " => some 3
      | _ => none
    match v with
    | some v => (.ok (.user v), w)
    | none => (.error "unknown constructor", w)
  conv _ v w := (.ok v, w)

-- `expect_eq!(res, 1882)` and `expect_eq!(Test::TABLE_SIZE, 20)`
example : parse true testSimple arithmetic (chars "21*42+1000") = .ok (.user 1882) := by decide +kernel
example : (expand testSimple).map (fun p => (p.1.lrTable.numStates, p.2.states.length)) = some (20, 20) := by
  decide +kernel

/-! ## tests/sanity_tests.rs -/

def sanitySimple : TokenStream := grammar! "
  name: TestSimple;
  terminal: char;

  <S> => 'a';
"

/-- No constructors. -/
def plain : Sem Nat Nat String Unit := ⟨charLit, fun _ _ => false, fun _ _ _ w => (.error "none", w), fun _ v w => (.ok v, w)⟩

-- `test_simple_parses`, `test_simple_empty_input`, `test_simple_incorrect_input`, `test_simple_extra_input`
example : parse true sanitySimple plain (chars "a") = .ok .unit := by decide +kernel
example : parse true sanitySimple plain (chars "") = .err (.parseError none) := by decide +kernel
example : parse true sanitySimple plain (chars "b") = .err (.parseError (some (.lit 98))) := by decide +kernel
example : parse true sanitySimple plain (chars "ab") = .err (.parseError (some (.lit 98))) := by decide +kernel

def addMul : TokenStream := grammar! "
  name: AddMul;
  terminal: char;

  <S>: u32 => <A> { #A };
  <A>: u32 => <A> '+' <P> {
    #A + #P
  } | <P> {
    #P
  };
  <P>: u32 => <P> '*' <V> {
    #P * #V
  } | <V> {
    #V
  };
  <V>: u32 => '2' { 2 } | '3' { 3 };
"

-- `test_add_mul_*`
example : parse true addMul arithmetic (chars "2") = .ok (.user 2) := by decide +kernel
example : parse true addMul arithmetic (chars "2+3") = .ok (.user 5) := by decide +kernel
example : parse true addMul arithmetic (chars "2*3") = .ok (.user 6) := by decide +kernel
example : parse true addMul arithmetic (chars "2*2+3") = .ok (.user 7) := by decide +kernel
example : parse true addMul arithmetic (chars "2+2*3") = .ok (.user 8) := by decide +kernel

def getReq : TokenStream := grammar! "
  name: GetReq;
  terminal: char;

  <root>: Req => <req> ' ' <uri> {
    Req::new(#req, #uri)
  };

  <req>: RequestType =>
    'G' 'E' 'T' { RequestType::Get } |
    'H' 'E' 'A' 'D' { RequestType::Head };
  <uri>: String => <absoluteURI> {
    #0
  };

  <absoluteURI>: String => ':' <alphas> {
    #0.to_string() + &#alphas
  };

  <alphas>: String => <alphas> <alpha> {
    #alphas + &#alpha.to_string()
  } | <alpha> {
    #alpha.to_string()
  };
  <alpha>: char =>
      'a' | 'b' | 'c' | 'd' | 'e' | 'f' | 'g' | 'h' | 'i' | 'j'
    | 'k' | 'l' | 'm' | 'n' | 'o' | 'p' | 'q' | 'r' | 's' | 't'
    | 'u' | 'v' | 'w' | 'x' | 'y' | 'z'
    | 'A' | 'B' | 'C' | 'D' | 'E' | 'F' | 'G' | 'H' | 'I' | 'J'
    | 'K' | 'L' | 'M' | 'N' | 'O' | 'P' | 'Q' | 'R' | 'S' | 'T'
    | 'U' | 'V' | 'W' | 'X' | 'Y' | 'Z';
"

/-- A string, or the string of a character. -/
def str : Option (Val Nat String) → String
  | some (.user v) => v
  | some (.tok (.lit c)) => String.ofList [Char.ofNat c]
  | _ => "?"

/-- Strings. -/
def strings : Sem Nat String String Unit where
  litVal := charLit
  pat _ _ := false
  body _ t env w :=
    let v := match print t with
      | "Req :: new ( __v0 , __v2 ) " => some ("Req(" ++ str (env 0) ++ "," ++ str (env 2) ++ ")")
      | "RequestType :: Get " => some "Get"
      | "RequestType :: Head " => some "Head"
      | "__v0 " => some (str (env 0))
      | "__v0 . to_string ( ) + &__v1 " => some (str (env 0) ++ str (env 1))
      | "__v0 + &__v1 . to_string ( ) " => some (str (env 0) ++ str (env 1))
      | "__v0 . to_string ( ) " => some (str (env 0))
      | _ => none
    match v with
    | some v => (.ok (.user v), w)
    | none => (.error (print t), w)
  conv _ v w := (.ok v, w)

-- `test_parse_uri`
#guard parse true getReq strings (chars "GET :abcdefgh") = .ok (.user "Req(Get,:abcdefgh)")

def nonLalr : TokenStream := grammar! "
  name: TestNonLALR;
  terminal: char;

  <T>: TestNonLALRPath => <S> { #S };
  <S>: TestNonLALRPath => <A> 'a' { TestNonLALRPath::C1 };
  <S>: TestNonLALRPath => 'b' <A> 'c' { TestNonLALRPath::C2 };
  <S>: TestNonLALRPath => <B> 'c' { TestNonLALRPath::C3 };
  <S>: TestNonLALRPath => 'b' <B> 'a' { TestNonLALRPath::C4 };
  <A> => 'd';
  <B> => 'd';
"

/-- Constructors that are paths. -/
def paths : Sem Nat String String Unit where
  litVal := charLit
  pat _ _ := false
  body _ t env w := (.ok (.user (if print t = "__v0 " then str (env 0) else print t)), w)
  conv _ v w := (.ok v, w)

-- `test_non_lalr`
example : parse true nonLalr paths (chars "da") = .ok (.user "TestNonLALRPath :: C1 ") := by decide +kernel
example : parse true nonLalr paths (chars "bdc") = .ok (.user "TestNonLALRPath :: C2 ") := by decide +kernel
example : parse true nonLalr paths (chars "dc") = .ok (.user "TestNonLALRPath :: C3 ") := by decide +kernel
example : parse true nonLalr paths (chars "bda") = .ok (.user "TestNonLALRPath :: C4 ") := by decide +kernel

/-! ## tests/auto_into.rs -/

def autoInto : TokenStream := grammar! "
  name: AutoInto;
  terminal: char;

  <root>: AOrB => <a_or_b>;

  <a_or_b>: AOrB => <a>;
  <a_or_b>: AOrB => <b>;

  <a>: A => 'a' { A(1) };
  <b>: B => 'b' { B(2) };
"

/-- Conversions: rules 1 and 2 are those from `A` and `B` to `AOrB`. -/
def converting : Sem Nat String String Unit where
  litVal := charLit
  pat _ _ := false
  body _ t _ w := (.ok (.user (print t)), w)
  conv rule v w := match rule with
    | 0 => (.ok v, w)
    | 1 => (.ok (.user ("AOrB::A " ++ str (some v))), w)
    | 2 => (.ok (.user ("AOrB::B " ++ str (some v))), w)
    | _ => (.error "no conversion", w)

-- `parse_a`, `parse_b`
example : parse true autoInto converting (chars "a") = .ok (.user "AOrB::A A ( 1 ) ") := by decide +kernel
example : parse true autoInto converting (chars "b") = .ok (.user "AOrB::B B ( 2 ) ") := by decide +kernel

/-! ## tests/test_large_or.rs -/

def largeOr : TokenStream := grammar! "
    name: Test;
    terminal: char;

    <S>: char => <dig> { #dig };
    <dig>: char =>
          'a' | 'b' | 'c' | 'd' | 'e' | 'f' | 'g' | 'h' | 'i' | 'j' |
          'k' | 'l' | 'm' | 'n' | 'o' | 'p' | 'q' | 'r' | 's' | 't' |
          'u' | 'v' | 'w' | 'x' | 'y' | 'z' |
          'A' | 'B' | 'C' | 'D' | 'E' | 'F' | 'G' | 'H' | 'I' | 'J' |
          'K' | 'L' | 'M' | 'N' | 'O' | 'P' | 'Q' | 'R' | 'S' | 'T' |
          'U' | 'V' | 'W' | 'X' | 'Y' | 'Z';
  "

/-- The characters in a row of these are all accepted as a text of one letter. -/
def acceptsEach (t : TokenStream) (letters : String) : Bool :=
  match expand t with
  | none => false
  | some (_, prog) => (chars letters).all fun c =>
    match prog.parse true paths (fun i => [c][i]?) 100 () with
    | .ok run =>
      match run.result with
      | .ok _ => true
      | .error _ => false
    | _ => false

-- `test_large_or`
#guard acceptsEach largeOr "abcdefghijklmnopqrstuvwxyzABCDEFGHIJKLMNOPQRSTUVWXYZ"
#guard parse true largeOr paths (chars ".") = .err (.parseError (some (.lit 46)))

/-! ## tests/disjoint_token_pattern.rs -/

def disjointPattern : TokenStream := grammar! "
  name: DisjointPattern;
  enum_terminal: Token;

  <root> => <ambiguous>;
  <ambiguous> => A(A { field1: 0..10, field2: _ });
  <ambiguous> => A(A { field1: 5..12, field2: 100 });
"

/-- The data of a token `A`: its two fields. The patterns are known by their text. -/
def ranges : Sem (Nat × Nat) String String Unit where
  litVal _ := (0, 0)
  pat text p :=
    if text = "A { field1 : 0 .. 10 , field2 : _ } " then p.1 < 10
    else if text = "A { field1 : 5 .. 12 , field2 : 100 } " then 5 ≤ p.1 && p.1 < 12 && p.2 == 100
    else false
  body _ t _ w := (.ok (.user (print t)), w)
  conv _ v w := (.ok v, w)

-- `no_conflicts`
example : parse true disjointPattern ranges [.data "A" (0, 100)] = .ok .unit := by decide +kernel
example : parse true disjointPattern ranges [.data "A" (8, 99)] = .ok .unit := by decide +kernel
-- `conflict`, in debug and release builds
example : parse true disjointPattern ranges [.data "A" (9, 100)] =
    .err (.overlapping (some (.data "A" (9, 100)))) := by decide +kernel
example : parse false disjointPattern ranges [.data "A" (9, 100)] = .ok .unit := by decide +kernel

/-! ## tests/token_pattern.rs -/

def tokenPattern : TokenStream := grammar! "
  name: TokenPattern;
  enum_terminal: Token;

  <root>: MainMethod =>
    Keyword(Keyword::Public) Keyword(Keyword::Static) Keyword(Keyword::Void)
    <ident> <eq> <literal> <semicolon> {
    MainMethod { name: #ident.name, value: #literal.0 }
  };
  <ident>: Ident => Ident(Ident { spacing: Spacing::Alone, .. });
  <eq> =>
    Operator(Operator { op: Op::Eq, spacing: Spacing::Joint })
    Operator(Operator { op: Op::Eq, spacing: Spacing::Alone });
  <semicolon> =>
    Operator(Operator { op: Op::Semicolon, spacing: Spacing::Alone });
  <literal>: Literal => Literal(..);
"

/-- Data of tokens: keywords, names with `Spacing`, operators with `Spacing`, literals. -/
inductive Data where
  | keyword (k : String)
  | ident (name : String) (joint : Bool)
  | literal (text : String)
  | operator (op : String) (joint : Bool)
deriving DecidableEq, Repr

/-- The name or text in the value of a symbol. -/
def dataText : Option (Val Data String) → String
  | some (.payload (.ident n _)) => n
  | some (.payload (.literal n)) => n
  | _ => "?"

def patterns : Sem Data String String Unit where
  litVal _ := .keyword ""
  pat text p := match text, p with
    | "Keyword :: Public ", .keyword k => k == "Public"
    | "Keyword :: Static ", .keyword k => k == "Static"
    | "Keyword :: Void ", .keyword k => k == "Void"
    | "Ident { spacing : Spacing :: Alone , .. } ", .ident _ joint => !joint
    | "Operator { op : Op :: Eq , spacing : Spacing :: Joint } ", .operator op joint => op == "Eq" && joint
    | "Operator { op : Op :: Eq , spacing : Spacing :: Alone } ", .operator op joint => op == "Eq" && !joint
    | "Operator { op : Op :: Semicolon , spacing : Spacing :: Alone } ", .operator op joint =>
      op == "Semicolon" && !joint
    | _, _ => false
  body _ t env w :=
    if print t = "MainMethod { name : __v3 . name , value : __v5 . 0 } " then
      (.ok (.user (dataText (env 3) ++ "=" ++ dataText (env 5))), w)
    else (.error (print t), w)
  conv _ v w := (.ok v, w)

/-- The tokens of `test_parse`. -/
def mainTokens : List (Token Data) :=
  [.data "Keyword" (.keyword "Public"), .data "Keyword" (.keyword "Static"), .data "Keyword" (.keyword "Void"),
   .data "Ident" (.ident "main" false), .data "Operator" (.operator "Eq" true),
   .data "Operator" (.operator "Eq" false), .data "Literal" (.literal "123"),
   .data "Operator" (.operator "Semicolon" false)]

-- `test_parse`, `test_parse_fail`, `test_partial_pattern_enforced`
example : parse true tokenPattern patterns mainTokens = .ok (.user "main=123") := by decide +kernel
example : parse true tokenPattern patterns
    [.data "Keyword" (.keyword "Static"), .data "Keyword" (.keyword "Public"), .data "Keyword" (.keyword "Void"),
     .data "Ident" (.ident "main" false), .data "Operator" (.operator "Eq" false), .data "Literal" (.literal "123")] =
    .err (.parseError (some (.data "Keyword" (.keyword "Static")))) := by decide +kernel
example : parse true tokenPattern patterns (mainTokens.set 3 (.data "Ident" (.ident "main" true))) =
    .err (.parseError (some (.data "Ident" (.ident "main" true)))) := by decide +kernel

/-! ## tests/fallible_ctor.rs -/

def fallibleCtor : TokenStream := grammar! "
  name: AutoInto;
  terminal: char;
  error_type: MyError;

  <root>: Container => <a>;

  <a>: A => 'a' { A(1) };
  <a>: A => 'z' { A(100) };

  <a>: A => 'b' { A(1).try_into()? };
  <a>: A => 'y' { A(100).try_into()? };
"

/-- `Container::try_from`. -/
def tryFrom (n : Nat) : Except String Nat :=
  if n < 10 then .ok n else .error ("Value \"" ++ toString n ++ "\" cannot be greater than 9")

/-- Constructors for numbers; the conversion of `A` to `A` cannot fail, that to `Container` is `tryFrom`. In
fallible_ctor.rs rule 0 converts, in into_error_type.rs rule 1 does. -/
def failing (converts : Nat) : Sem Nat Nat String Unit where
  litVal := charLit
  pat _ _ := false
  body _ t _ w :=
    let r : Except String Nat := match print t with
      | "A ( 1 ) " => .ok 1
      | "A ( 100 ) " => .ok 100
      | "A ( 1 ) . try_into ( ) ? " => .ok 1
      | "A ( 100 ) . try_into ( ) ? " => .ok 100
      | "Container :: try_from_a ( A ( 1 ) ) ? " => tryFrom 1
      | "Container :: try_from_a ( A ( 100 ) ) ? " => tryFrom 100
      | s => .error s
    (r.map .user, w)
  conv rule v w := match v with
    | .user n => if rule = converts then ((tryFrom n).map .user, w) else (.ok v, w)
    | v => (.ok v, w)

-- `parse_a`, `parse_b`
example : parse true fallibleCtor (failing 0) (chars "a") = .ok (.user 1) := by decide +kernel
example : parse true fallibleCtor (failing 0) (chars "b") = .ok (.user 1) := by decide +kernel
example : parse true fallibleCtor (failing 0) (chars "z") =
    .err (.user "Value \"100\" cannot be greater than 9") := by decide +kernel
example : parse true fallibleCtor (failing 0) (chars "y") =
    .err (.user "Value \"100\" cannot be greater than 9") := by decide +kernel

/-! ## tests/into_error_type.rs -/

def intoErrorType : TokenStream := grammar! "
  name: AutoInto;
  terminal: char;
  error_type: MyError;

  <root>: Container => <a_or_b>;

  <a_or_b>: Container => <a>;
  <a_or_b>: Container => <b>;

  <a>: A => 'a' { A(1) };
  <a>: A => 'z' { A(100) };

  <a>: A => 'b' { A(1).try_into()? };
  <a>: A => 'y' { A(100).try_into()? };

  <b>: Container => 'c' { Container::try_from_a(A(1))? };
  <b>: Container => 'x' { Container::try_from_a(A(100))? };
"

-- `parse_a`, `parse_b`
example : ["a", "b", "c"].map (fun s => parse true intoErrorType (failing 1) (chars s)) =
    [.ok (.user 1), .ok (.user 1), .ok (.user 1)] := by decide +kernel
example : ["z", "y", "x"].map (fun s => parse true intoErrorType (failing 1) (chars s)) =
    List.replicate 3 (.err (.user "Value \"100\" cannot be greater than 9")) := by decide +kernel

/-! ## tests/fallible_input_stream.rs -/

def fallibleInput : TokenStream := grammar! "
  name: Test;
  terminal: char;
  error_type: MyError;

  <S>: u32 => <A> '+' <B> {
    #A + #B
  };
  <A>: u32 => <dig> { u32::from(#dig) - u32::from(b'0') };
  <B>: u32 => <dig> { u32::from(#dig) - u32::from(b'0') };
  <dig>: char =>
        '0' | '1' | '2' | '3' | '4' | '5' | '6' | '7' | '8' | '9';
"

/-- Sums of digits. -/
def sums : Sem Nat Nat String Unit where
  litVal := charLit
  pat _ _ := false
  body _ t env w :=
    match print t with
    | "__v0 + __v2 " => (.ok (.user (num (env 0) + num (env 2))), w)
    | "u32 :: from ( __v0 ) - u32 :: from ( b '0' ) " => (.ok (.user (num (env 0))), w)
    | s => (.error s, w)
  conv _ v w := (.ok v, w)

-- `test_stream_fails`, `test_stream_succeeds`
example : parseFallible true fallibleInput sums id [.ok (.lit 51), .ok (.lit 43), .error "MyError"] =
    .err (.user "MyError") := by decide +kernel
example : parseFallible true fallibleInput sums (id : String → String) [.ok (.lit 51), .ok (.lit 43), .ok (.lit 50)] =
    .ok (.user 5) := by decide +kernel

/-! ## tests/error_messages.rs -/

def errorMessages : TokenStream := grammar! "
  name: AOrB;
  enum_terminal: Token;

  <root> => <text>;

  <text> => <all_a>;
  <text> => <all_b>;

  <all_a> => <a>;
  <all_a> => <all_a> <a>;
  <all_b> => <b>;
  <all_b> => <all_b> <b>;

  <a> => A(..);
  <b> => B(..);
"

/-- `to_token_stream`. -/
def toTokens (s : String) : List (Token Nat) :=
  s.toList.zipIdx.map fun (c, i) => .data (if c = 'a' then "A" else if c = 'b' then "B" else "C") i

-- `unexpected_token`, `unexpected_token_mid_stream`, `unexpected_token_not_in_vocab`
example : parse true errorMessages plain (toTokens "ab") = .err (.parseError (some (.data "B" 1))) := by decide +kernel
example : parse true errorMessages plain (toTokens "aaaabaa") =
    .err (.parseError (some (.data "B" 4))) := by decide +kernel
example : parse true errorMessages plain (toTokens "aaaca") =
    .err (.parseError (some (.data "C" 3))) := by decide +kernel

/-! ## tests/brainfck.rs -/

def brainfck : TokenStream := grammar! "
  name: BrainFck;
  enum_terminal: Instruction;

  <root>: InstructionList => <instruction_list>;
  <instruction_list>: InstructionList =>
    ! { InstructionList { instructions: Vec::new() } } |
    <instruction_list> <instruction> { #instruction_list.with(#instruction) } |
    <instruction_list> OpenBracket <instruction_list> CloseBracket {
      #0.push(Instruction::OpenBracket);
      #0.extend(#2);
      #0.push(Instruction::CloseBracket);
      #0
    };
  <instruction>: Instruction => IncTape;
  <instruction>: Instruction => DecTape;
  <instruction>: Instruction => IncByte;
  <instruction>: Instruction => DecByte;
  <instruction>: Instruction => Output;
  <instruction>: Instruction => Input;
"

/-- `Instruction::from_char`. -/
def instruction (c : Char) : String :=
  match c with
  | '>' => "IncTape"
  | '<' => "DecTape"
  | '+' => "IncByte"
  | '-' => "DecByte"
  | '.' => "Output"
  | ',' => "Input"
  | '[' => "OpenBracket"
  | _ => "CloseBracket"

/-- A list of instructions, or that of one instruction. -/
def program : Option (Val Nat (List String)) → List String
  | some (.user l) => l
  | some (.tok (.unit name)) => [name]
  | _ => ["?"]

/-- Programs are lists of instructions. -/
def programs : Sem Nat (List String) String Unit where
  litVal := charLit
  pat _ _ := false
  body _ t env w :=
    match print t with
    | "InstructionList { instructions : Vec :: new ( ) } " => (.ok (.user []), w)
    | "__v0 . with ( __v1 ) " => (.ok (.user (program (env 0) ++ program (env 1))), w)
    | "__v0 . push ( Instruction :: OpenBracket ) ; __v0 . extend ( __v2 ) ; __v0 . push ( Instruction :: CloseBracket ) ; __v0 " =>
      (.ok (.user (program (env 0) ++ ["OpenBracket"] ++ program (env 2) ++ ["CloseBracket"])), w)
    | s => (.error s, w)
  conv _ v w := (.ok v, w)

-- What the tests do with a program is not the parser's concern: they rely on the parser giving back its instructions.
-- `count_to_ten`, `add_two`
def addTwo : String := ",>,[<+>-]<------------------------------------------------."
def countToTen : String :=
  "+++++++++++++++++++++++++++++++++++++++++++++++++>" ++
  "++++++++++>" ++
  "+++++++++[<<.+>.>-]" ++
  "+++++++++[<<->>-]" ++
  "<<.-.>."

#guard parse true brainfck programs (addTwo.toList.map fun c => .unit (instruction c)) =
  .ok (.user (addTwo.toList.map instruction))
#guard parse true brainfck programs (countToTen.toList.map fun c => .unit (instruction c)) =
  .ok (.user (countToTen.toList.map instruction))

end Verif.Tests

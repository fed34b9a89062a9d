import Verif.Model.Text
/-!
The Common Expression Language: lexer, syntax and grammar, following the language definition
(https://github.com/google/cel-spec, doc/langdef.md). Numbers are kept as texts, `.5` without a leading
digit is left out. The interpreter the filter links is external; this file is the specification against
which the texts the filter generates are read.
-/
namespace Verif.Cel

inductive Sym where
  | lpar | rpar | lbrack | rbrack | lbrace | rbrace | comma | dot | quest | colon
  | and | or | eq | ne | lt | le | gt | ge | isIn | not | plus | minus | star | slash | percent
deriving DecidableEq, Repr

inductive Token where
  | sym (s : Sym)
  | ident (name : Text)
  | num (text : Text)
  | str (bytes : Bool) (value : Text)
deriving DecidableEq, Repr

/-! ### Lexer -/

/-- A string literal that is being read. -/
structure StrInfo where
  double : Bool
  raw : Bool
  bytes : Bool
  long : Bool := false
  acc : Text := []
deriving DecidableEq, Repr

/-- The quote that ends the literal. -/
def StrInfo.quote (i : StrInfo) : Char := if i.double then '"' else '\''

/-- What is being read. -/
inductive Mode where
  | normal
  | word (acc : Text)
  | num (acc : Text)
  /-- a symbol that may have a second character -/
  | pend (c : Char)
  /-- one opening quote -/
  | open1 (i : StrInfo)
  /-- two quotes: the empty string, or the beginning of a long string -/
  | open2 (i : StrInfo)
  | body (i : StrInfo)
  /-- `n` quotes within a long string -/
  | close (i : StrInfo) (n : Nat)
  | esc (i : StrInfo)
  /-- `n` more digits of a character code -/
  | code (i : StrInfo) (base n value : Nat)
  | comment
  | bad
deriving DecidableEq, Repr

def isLetter (c : Char) : Bool := ('a' ≤ c && c ≤ 'z') || ('A' ≤ c && c ≤ 'Z') || c = '_'
def isDigit (c : Char) : Bool := '0' ≤ c && c ≤ '9'
def isBlank (c : Char) : Bool := c = ' ' || c = '\t' || c = '\n' || c = '\r' || c = '\x0c'

def digitOf (base : Nat) (c : Char) : Option Nat :=
  let v := if isDigit c then some (c.toNat - '0'.toNat)
    else if 'a' ≤ c && c ≤ 'f' then some (c.toNat - 'a'.toNat + 10)
    else if 'A' ≤ c && c ≤ 'F' then some (c.toNat - 'A'.toNat + 10)
    else none
  v.bind fun d => if d < base then some d else none

def single : Char → Option Sym
  | '(' => some .lpar | ')' => some .rpar | '[' => some .lbrack | ']' => some .rbrack
  | '{' => some .lbrace | '}' => some .rbrace | ',' => some .comma | '.' => some .dot
  | '?' => some .quest | ':' => some .colon | '+' => some .plus | '-' => some .minus
  | '*' => some .star | '%' => some .percent
  | _ => none

/-- The symbol of one character that may also begin one of two characters. -/
def lone : Char → Option Sym
  | '!' => some .not | '<' => some .lt | '>' => some .gt | '/' => some .slash | _ => none

def pair : Char → Char → Option Sym
  | '&', '&' => some .and | '|', '|' => some .or | '=', '=' => some .eq | '!', '=' => some .ne
  | '<', '=' => some .le | '>', '=' => some .ge | _, _ => none

def escape : Char → Option Char
  | '\\' => some '\\' | '"' => some '"' | '\'' => some '\'' | '`' => some '`' | '?' => some '?'
  | 'a' => some '\x07' | 'b' => some '\x08' | 'f' => some '\x0c' | 'n' => some '\n'
  | 'r' => some '\r' | 't' => some '\t' | 'v' => some '\x0b' | _ => none

def wordToken (t : Text) : Token := if t = "in".toList then .sym .isIn else .ident t

/-- Tokens so far and what is being read. -/
abbrev LexState := List Token × Mode

/-- A character between tokens. -/
def start (out : List Token) (c : Char) : LexState :=
  if isBlank c then (out, .normal)
  else match single c with
    | some s => (out ++ [.sym s], .normal)
    | none =>
      if c = '&' || c = '|' || c = '=' || c = '!' || c = '<' || c = '>' || c = '/' then (out, .pend c)
      else if c = '"' || c = '\'' then (out, .open1 { double := c = '"', raw := false, bytes := false })
      else if isLetter c then (out, .word [c])
      else if isDigit c then (out, .num [c])
      else (out, .bad)

/-- A character of a string literal. -/
def inBody (out : List Token) (i : StrInfo) (c : Char) : LexState :=
  if c = i.quote then
    if i.long then (out, .close i 1) else (out ++ [.str i.bytes i.acc], .normal)
  else if c = '\\' && !i.raw then (out, .esc i)
  else if (c = '\n' || c = '\r') && !i.long then (out, .bad)
  else (out, .body { i with acc := i.acc ++ [c] })

/-- The prefixes of string literals: raw, bytes, or both. -/
def prefixOf (t : Text) : Option (Bool × Bool) :=
  if t = ['r'] || t = ['R'] then some (true, false)
  else if t = ['b'] || t = ['B'] then some (false, true)
  else if t.map Char.toLower = ['b', 'r'] || t.map Char.toLower = ['r', 'b'] then some (true, true)
  else none

def step (st : LexState) (c : Char) : LexState :=
  let out := st.1
  match st.2 with
  | .normal => start out c
  | .word acc =>
    if isLetter c || isDigit c then (out, .word (acc ++ [c]))
    else if c = '"' || c = '\'' then
      match prefixOf acc with
      | some (raw, bytes) => (out, .open1 { double := c = '"', raw, bytes })
      | none => start (out ++ [wordToken acc]) c
    else start (out ++ [wordToken acc]) c
  | .num acc =>
    if isLetter c || isDigit c || c = '.' then (out, .num (acc ++ [c]))
    else if (c = '+' || c = '-') && (acc.getLast? = some 'e' || acc.getLast? = some 'E') &&
      acc.take 2 ≠ "0x".toList then (out, .num (acc ++ [c]))
    else start (out ++ [.num acc]) c
  | .pend p =>
    match pair p c with
    | some s => (out ++ [.sym s], .normal)
    | none =>
      if p = '/' && c = '/' then (out, .comment)
      else match lone p with
        | some s => start (out ++ [.sym s]) c
        | none => (out, .bad)
  | .open1 i => if c = i.quote then (out, .open2 i) else inBody out i c
  | .open2 i =>
    if c = i.quote then (out, .body { i with long := true })
    else start (out ++ [.str i.bytes []]) c
  | .body i => inBody out i c
  | .close i n =>
    if c = i.quote then
      if n = 2 then (out ++ [.str i.bytes i.acc], .normal) else (out, .close i (n + 1))
    else inBody out { i with acc := i.acc ++ List.replicate n i.quote } c
  | .esc i =>
    match escape c with
    | some v => (out, .body { i with acc := i.acc ++ [v] })
    | none =>
      if c = 'x' || c = 'X' then (out, .code i 16 2 0)
      else if c = 'u' then (out, .code i 16 4 0)
      else if c = 'U' then (out, .code i 16 8 0)
      else if '0' ≤ c && c ≤ '3' then (out, .code i 8 2 (c.toNat - '0'.toNat))
      else (out, .bad)
  | .code i base n v =>
    match digitOf base c with
    | none => (out, .bad)
    | some d =>
      if n ≤ 1 then (out, .body { i with acc := i.acc ++ [Char.ofNat (v * base + d)] })
      else (out, .code i base (n - 1) (v * base + d))
  | .comment => if c = '\n' then (out, .normal) else (out, .comment)
  | .bad => (out, .bad)

def scan (t : Text) (st : LexState) : LexState := t.foldl step st

/-- The tokens if the text could end here. -/
def finish (st : LexState) : Option (List Token) :=
  match st.2 with
  | .normal => some st.1
  | .comment => some st.1
  | .word acc => some (st.1 ++ [wordToken acc])
  | .num acc => some (st.1 ++ [.num acc])
  | .pend p => (lone p).map fun s => st.1 ++ [.sym s]
  | .open2 i => some (st.1 ++ [.str i.bytes []])
  | _ => none

def lex (t : Text) : Option (List Token) := finish (scan t ([], .normal))

/-- The text ends within a comment, so that what is put behind it on the same line would belong to the
comment. -/
def EndsInComment (t : Text) : Prop := (scan t ([], .normal)).2 = .comment

instance (t : Text) : Decidable (EndsInComment t) := by unfold EndsInComment; infer_instance

/-! ### Syntax -/

inductive Binary where
  | or | and | eq | ne | lt | le | gt | ge | isIn | add | sub | mul | div | mod
deriving DecidableEq, Repr

inductive Unary where
  | not | neg
deriving DecidableEq, Repr

inductive Ast where
  | ident (name : Text)
  /-- `.name` -/
  | root (name : Text)
  | num (text : Text)
  | str (bytes : Bool) (value : Text)
  | select (e : Ast) (field : Text)
  | index (e i : Ast)
  /-- `f(args)` -/
  | call (fn : Text) (args : List Ast)
  /-- `e.f(args)` -/
  | method (e : Ast) (fn : Text) (args : List Ast)
  | list (es : List Ast)
  | map (entries : List (Ast × Ast))
  /-- `e{field: value, …}` -/
  | message (name : Ast) (fields : List (Text × Ast))
  | unary (op : Unary) (e : Ast)
  | binary (op : Binary) (l r : Ast)
  | cond (c a b : Ast)

/-- `a.b.c` -/
def path (first : Text) (names : List Text) : Ast := names.foldl .select (.ident first)

/-- `R` relates the two lists element by element. -/
inductive Each {α β : Type} (R : α → β → Prop) : List α → List β → Prop
  | nil : Each R [] []
  | cons {a : α} {b : β} {as : List α} {bs : List β} : R a b → Each R as bs → Each R (a :: as) (b :: bs)

/-! ### Grammar -/

/-- A parser takes tokens from the front. -/
abbrev Parser (α : Type) := List Token → Option (α × List Token)

namespace Parser

variable {α β : Type}

def ret (a : α) : Parser α := fun toks => some (a, toks)
def fail : Parser α := fun _ => none

def bind (p : Parser α) (f : α → Parser β) : Parser β := fun toks =>
  match p toks with
  | some (a, rest) => f a rest
  | none => none

/-- Look at the next token and take it if it is a suitable one. -/
def next (f : Token → Option β) (yes : β → Parser α) (no : Parser α) : Parser α
  | [] => no []
  | t :: rest => match f t with
    | some b => yes b rest
    | none => no (t :: rest)

def isSym (s : Sym) (t : Token) : Option Unit := if t = .sym s then some () else none
def isIdent : Token → Option Text
  | .ident n => some n
  | _ => none

def ifSym (s : Sym) (yes no : Parser α) : Parser α := next (isSym s) (fun _ => yes) no
def expect (s : Sym) (p : Parser α) : Parser α := ifSym s p fail

end Parser

open Parser

/-- Elements up to a closing symbol, separated by commas; a comma may follow the last one. -/
def elements {α : Type} (e : Parser α) (close : Sym) : Nat → Parser (List α)
  | 0 => fail
  | k + 1 => ifSym close (ret []) <| bind e fun a =>
      ifSym close (ret [a]) <| expect .comma <| bind (elements e close k) fun as => ret (a :: as)

/-- `key: value`. -/
def entry {α : Type} (key : Parser α) (e : Parser Ast) : Parser (α × Ast) :=
  bind key fun k => expect .colon <| bind e fun v => ret (k, v)

def fieldName : Parser Text := next isIdent ret fail

/-- Member: what follows a primary expression. -/
def members (e : Parser Ast) : Nat → Ast → Parser Ast
  | 0, _ => fail
  | k + 1, a =>
    ifSym .dot (next isIdent
      (fun f => ifSym .lpar (bind (elements e .rpar k) fun args => members e k (.method a f args))
        (members e k (.select a f))) fail) <|
    ifSym .lbrack (bind e fun i => expect .rbrack (members e k (.index a i))) <|
    ifSym .lbrace (bind (elements (entry fieldName e) .rbrace k) fun fs => members e k (.message a fs)) <|
    ret a

def isLiteral : Token → Option Ast
  | .num t => some (.num t)
  | .str b v => some (.str b v)
  | _ => none

def primary (e : Parser Ast) (k : Nat) : Parser Ast :=
  next isLiteral ret <|
  next isIdent (fun n => ifSym .lpar (bind (elements e .rpar k) fun args => ret (.call n args))
    (ret (.ident n))) <|
  ifSym .lpar (bind e fun a => expect .rpar (ret a)) <|
  ifSym .lbrack (bind (elements e .rbrack k) fun es => ret (.list es)) <|
  ifSym .lbrace (bind (elements (entry e e) .rbrace k) fun es => ret (.map es)) <|
  ifSym .dot (next isIdent (fun n => ret (.root n)) fail) <|
  fail

def unary (e : Parser Ast) (k : Nat) : Nat → Parser Ast
  | 0 => fail
  | n + 1 =>
    ifSym .not (bind (unary e k n) fun a => ret (.unary .not a)) <|
    ifSym .minus (bind (unary e k n) fun a => ret (.unary .neg a)) <|
    bind (primary e k) (members e k)

/-- Operators that associate to the left. -/
def binaries (ops : Token → Option Binary) (sub : Parser Ast) : Nat → Ast → Parser Ast
  | 0, _ => fail
  | k + 1, l => next ops (fun op => bind sub fun r => binaries ops sub k (.binary op l r)) (ret l)

def level (ops : Token → Option Binary) (k : Nat) (sub : Parser Ast) : Parser Ast :=
  bind sub (binaries ops sub k)

def mulOps : Token → Option Binary
  | .sym .star => some .mul | .sym .slash => some .div | .sym .percent => some .mod | _ => none
def addOps : Token → Option Binary
  | .sym .plus => some .add | .sym .minus => some .sub | _ => none
def relOps : Token → Option Binary
  | .sym .eq => some .eq | .sym .ne => some .ne | .sym .lt => some .lt | .sym .le => some .le
  | .sym .gt => some .gt | .sym .ge => some .ge | .sym .isIn => some .isIn | _ => none
def andOps : Token → Option Binary
  | .sym .and => some .and | _ => none
def orOps : Token → Option Binary
  | .sym .or => some .or | _ => none

/-- `ConditionalOr`: everything that binds more tightly than the conditional operator. -/
def disjunction (e : Parser Ast) (k : Nat) : Parser Ast :=
  level orOps k <| level andOps k <| level relOps k <| level addOps k <| level mulOps k <| unary e k k

/-- `Expr`; the number bounds the depth and the length of the expression. -/
def expr : Nat → Parser Ast
  | 0 => fail
  | k + 1 => bind (disjunction (expr k) k) fun c =>
      ifSym .quest (bind (disjunction (expr k) k) fun a => expect .colon <| bind (expr k) fun b =>
        ret (.cond c a b)) (ret c)

/-- The text is an expression with this syntax tree. -/
def Parses (t : Text) (a : Ast) : Prop := ∃ toks k, lex t = some toks ∧ expr k toks = some (a, [])

/-- The text is an expression that binds more tightly than the conditional operator. -/
def ParsesOr (t : Text) (a : Ast) : Prop :=
  ∃ toks k, lex t = some toks ∧ disjunction (expr k) k toks = some (a, [])

/-- A parser that can be run. -/
def parse (t : Text) : Option Ast :=
  match lex t with
  | none => none
  | some toks => match expr (toks.length + 2) toks with
    | some (a, []) => some a
    | _ => none

theorem parse_parses {t : Text} {a : Ast} (h : parse t = some a) : Parses t a := by
  unfold parse at h
  split at h
  · exact nomatch h
  · rename_i toks ht
    split at h
    · rename_i x hx; cases h; exact ⟨toks, _, ht, hx⟩
    · exact nomatch h

end Verif.Cel

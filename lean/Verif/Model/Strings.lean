import Verif.Model.Factory
import Verif.Model.Val
import Verif.Model.Path
/-!
The string functions the filter adds to CEL (`data/cel/strings.rs`), called as methods on a text
(`'text'.f(args)`): the receiver is `this` and `args` are the remaining arguments. The functions of
Rust's standard library they call (`str::find`, `split`, `trim`, ...) are modelled by what their
documentation says. Texts are lists of characters; Rust's offsets count bytes of UTF-8.
-/
namespace Verif

/-- What calling one of these functions does: a value, an evaluation error, or a Rust panic. -/
inductive FnRes where
  | ok (v : Val)
  | error
  | panic

/-- `arg as usize` for an integer argument (e.g. `strings.rs` L27-28). The filter is compiled for
`wasm32-wasip1` (`Makefile` L39), where `usize` has 32 bits. -/
def usizeOf (i : Int) : Nat := (i % 4294967296).toNat

/-- An integer argument as `usize` (`strings.rs` L26-38, L65-77, L154-164, L193-203, L224-246);
`none` when it is of another type. -/
def indexArg : Val → Option Nat
  | .int i => some (usizeOf i)
  | .uint n => some (usizeOf n)
  | _ => none

/-- The number of bytes of a text (`str::len`). -/
def byteLen (t : Text) : Nat := (utf8 t).length

/-- `str::starts_with`. -/
def textStarts : (t pre : Text) → Bool
  | _, [] => true
  | [], _ :: _ => false
  | c :: t, p :: pre => c == p && textStarts t pre

/-- `str::find`, as the number of characters in front of the first occurrence. -/
def findText (sub : Text) : Text → Option Nat
  | [] => if sub.isEmpty then some 0 else none
  | c :: t => if textStarts (c :: t) sub then some 0 else (findText sub t).map (· + 1)

/-- `str::rfind`, as the number of characters in front of the last occurrence. -/
def rfindText (sub : Text) : Text → Option Nat
  | [] => if sub.isEmpty then some 0 else none
  | c :: t => match rfindText sub t with
    | some k => some (k + 1)
    | none => if textStarts (c :: t) sub then some 0 else none

/-- The slice `&this[base..]`, `none` when `base` is inside a character or beyond the end, in which
case Rust panics. -/
def dropBytes : Nat → Text → Option Text
  | 0, t => some t
  | _ + 1, [] => none
  | n + 1, c :: t => if byteLen [c] ≤ n + 1 then dropBytes (n + 1 - byteLen [c]) t else none

/-- An offset in bytes as the functions return it, after `front` characters of `t`; -1 when there is
no occurrence. -/
def offsetVal (base : Nat) (t : Text) : Option Nat → FnRes
  | none => .ok (.int (-1))
  | some k => .ok (.uint (base + byteLen (t.take k)))

/-- `strings.rs` L5-13 `char_at`. -/
def charAt (this : Text) (arg : Int) : FnRes :=
  match this[usizeOf arg]? with
  | none => .error
  | some c => .ok (.str [c])

/-- `strings.rs` L15-52 `index_of`. -/
def indexOf (this : Text) (args : List Val) : FnRes :=
  match args with
  | [.str arg] => offsetVal 0 this (findText arg this)
  | [.str arg, v] =>
    match indexArg v with
    | none => .error
    | some base =>
      if byteLen this ≤ base then .ok (.int (-1))
      else match dropBytes base this with
        | none => .panic
        | some rest => offsetVal base rest (findText arg rest)
  | _ => .error

/-- `strings.rs` L54-91 `last_index_of`. L83 returns the offset in the slice. -/
def lastIndexOf (this : Text) (args : List Val) : FnRes :=
  match args with
  | [.str arg] => offsetVal 0 this (rfindText arg this)
  | [.str arg, v] =>
    match indexArg v with
    | none => .error
    | some base =>
      if byteLen this ≤ base then .ok (.int (-1))
      else match dropBytes base this with
        | none => .panic
        | some rest => offsetVal 0 rest (rfindText arg rest)
  | _ => .error

/-- The texts of a list of values, `none` when one of them is not a text (`strings.rs` L104-113). -/
def textsOf : List Val → Option (List Text)
  | [] => some []
  | .str t :: l => (textsOf l).map (t :: ·)
  | _ :: _ => none

/-- `strings.rs` L93-116 `join`; `this` is a list. Further arguments are ignored. -/
def joinFn (this : List Val) (args : List Val) : FnRes :=
  match args with
  | [] => (textsOf this).elim .error fun l => .ok (.str (joinWith [] l))
  | .str sep :: _ => (textsOf this).elim .error fun l => .ok (.str (joinWith sep l))
  | _ :: _ => .error

/-- `strings.rs` L118-120 `lower_ascii`. -/
def lowerAscii (this : Text) : FnRes := .ok (.str (asciiLower this))

/-- `str::to_ascii_uppercase`. -/
def asciiUpper (t : Text) : Text := t.map fun c => if 'a' ≤ c ∧ c ≤ 'z' then Char.ofNat (c.toNat - 32) else c

/-- `strings.rs` L122-124 `upper_ascii`. -/
def upperAscii (this : Text) : FnRes := .ok (.str (asciiUpper this))

/-- `char::is_whitespace`: the characters with the Unicode property White_Space. -/
def isSpace (c : Char) : Bool :=
  let n := c.toNat
  (0x9 ≤ n && n ≤ 0xD) || n == 0x20 || n == 0x85 || n == 0xA0 || n == 0x1680 || (0x2000 ≤ n && n ≤ 0x200A) ||
    n == 0x2028 || n == 0x2029 || n == 0x202F || n == 0x205F || n == 0x3000

/-- `str::trim`. -/
def trimText (t : Text) : Text := ((t.dropWhile isSpace).reverse.dropWhile isSpace).reverse

/-- `strings.rs` L126-128 `trim`. -/
def trimFn (this : Text) : FnRes := .ok (.str (trimText this))

/-- The pieces of a text between the first `n` occurrences of a separator that is not empty. -/
def cutPieces (sep : Text) : Nat → Text → List Text
  | 0, t => [t]
  | n + 1, t => match findText sep t with
    | none => [t]
    | some k => t.take k :: cutPieces sep n (t.drop (k + sep.length))

/-- The pieces after the first one when the separator is empty: it occurs after every character. -/
def cutChars : Nat → Text → List Text
  | 0, t => [t]
  | _ + 1, [] => [[]]
  | n + 1, c :: t => [c] :: cutChars n t

/-- The pieces of a text between the first `n` occurrences of a separator. An empty separator occurs in
front of every character and at the end. -/
def pieces (sep : Text) (n : Nat) (t : Text) : List Text :=
  match sep, n with
  | [], 0 => [t]
  | [], n + 1 => [] :: cutChars n t
  | sep, n => cutPieces sep n t

/-- `str::split`. A text has fewer occurrences of a separator than characters and one. -/
def splitText (t sep : Text) : List Text := pieces sep (t.length + 1) t

/-- `str::splitn`: at most `n` pieces. -/
def splitnText (t sep : Text) : Nat → List Text
  | 0 => []
  | n + 1 => pieces sep n t

/-- `str::replacen`: the first `n` occurrences replaced. -/
def replacenText (t sub by_ : Text) (n : Nat) : Text := joinWith by_ (pieces sub n t)

/-- `str::replace`. -/
def replaceText (t sub by_ : Text) : Text := replacenText t sub by_ (t.length + 1)

/-- `strings.rs` L130-175 `replace`. -/
def replaceFn (this : Text) (args : List Val) : FnRes :=
  match args with
  | [.str sub, .str by_] => .ok (.str (replaceText this sub by_))
  | [.str sub, .str by_, v] =>
    match indexArg v with
    | none => .error
    | some n => .ok (.str (replacenText this sub by_ n))
  | _ => .error

/-- `strings.rs` L177-219 `split`. -/
def splitFn (this : Text) (args : List Val) : FnRes :=
  match args with
  | [.str sep] => .ok (.list ((splitText this sep).map .str))
  | [.str sep, v] =>
    match indexArg v with
    | none => .error
    | some n => .ok (.list ((splitnText this sep n).map .str))
  | _ => .error

/-- `strings.rs` L250-261: the end of `substring`. -/
def charsBetween (this : Text) (start stop : Nat) : FnRes :=
  if stop < start then .error else .ok (.str ((this.drop start).take (stop - start)))

/-- `strings.rs` L221-268 `substring`. -/
def substringFn (this : Text) (args : List Val) : FnRes :=
  match args with
  | [v] =>
    match indexArg v with
    | none => .error
    | some start => charsBetween this start this.length
  | [v, w] =>
    match indexArg v, indexArg w with
    | some start, some stop => charsBetween this start stop
    | _, _ => .error
  | _ => .error

end Verif

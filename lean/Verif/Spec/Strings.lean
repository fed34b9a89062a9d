import Verif.Model.Text
/-!
What the string functions of CEL and the query decoder mean, in terms of texts only.
-/
namespace Verif.Spec

/-- `pre` is what stands in front of the first occurrence of `sub` in `t`, and `post` what follows it. -/
structure FirstOcc (sub t pre post : Text) : Prop where
  occurs : t = pre ++ sub ++ post
  first : ∀ pre' post', t = pre' ++ sub ++ post' → pre.length ≤ pre'.length

/-- `pre` is what stands in front of the last occurrence of `sub` in `t`, and `post` what follows it. -/
structure LastOcc (sub t pre post : Text) : Prop where
  occurs : t = pre ++ sub ++ post
  last : ∀ pre' post', t = pre' ++ sub ++ post' → pre'.length ≤ pre.length

/-- The pieces of `t` around the first `n` occurrences of `sep`, read from left to right. -/
inductive Pieces (sep : Text) : Nat → Text → List Text → Prop where
  | stop (t : Text) : Pieces sep 0 t [t]
  | last {t : Text} (n : Nat) : ¬ sep <:+: t → Pieces sep n t [t]
  | cut {n : Nat} {t pre post : Text} {l : List Text} :
      FirstOcc sep t pre post → Pieces sep n post l → Pieces sep (n + 1) t (pre :: l)

/-- `r` is `t` with the first `n` occurrences of `sub`, read from left to right, replaced by `new`. -/
inductive ReplacedIn (sub new : Text) : Nat → Text → Text → Prop where
  | stop (t : Text) : ReplacedIn sub new 0 t t
  | last {t : Text} (n : Nat) : ¬ sub <:+: t → ReplacedIn sub new n t t
  | step {n : Nat} {t pre post r : Text} :
      FirstOcc sub t pre post → ReplacedIn sub new n post r → ReplacedIn sub new (n + 1) t (pre ++ new ++ r)

/-- The texts with a separator between them. -/
def glue (sep : Text) : List Text → Text
  | [] => []
  | [t] => t
  | t :: ts => t ++ sep ++ glue sep ts

/-- A space in the sense of Unicode's White_Space property. -/
def White (c : Char) : Prop :=
  c.toNat ∈ [0x9, 0xA, 0xB, 0xC, 0xD, 0x20, 0x85, 0xA0, 0x1680, 0x2000, 0x2001, 0x2002, 0x2003, 0x2004, 0x2005,
    0x2006, 0x2007, 0x2008, 0x2009, 0x200A, 0x2028, 0x2029, 0x202F, 0x205F, 0x3000]

/-- The number of bytes of a text in UTF-8. -/
def bytesOf (t : Text) : Nat := (utf8 t).length

/-- Names and values of a query string, as they are written: the parts between `&`, and in each part
what is in front of the first `=` and what is between the first and the second `=`. -/
inductive RawParam : (part name value : Text) → Prop where
  | bare {p : Text} : '=' ∉ p → RawParam p p []
  | pair {n v : Text} : '=' ∉ n → '=' ∉ v → RawParam (n ++ '=' :: v) n v
  | more {n v rest : Text} : '=' ∉ n → '=' ∉ v → RawParam (n ++ '=' :: (v ++ '=' :: rest)) n v

/-- The parts of a query and the names and values in them. -/
inductive RawParams : List Text → List (Text × Text) → Prop where
  | nil : RawParams [] []
  | cons {p n v : Text} {parts : List Text} {ps : List (Text × Text)} :
      RawParam p n v → RawParams parts ps → RawParams (p :: parts) ((n, v) :: ps)

/-- The hexadecimal digits for a number below 16: `48` is `0`, `65` is `A`, `97` is `a`. -/
def IsHex (c : Char) (n : Nat) : Prop :=
  (n < 10 ∧ c.toNat = 48 + n) ∨ (10 ≤ n ∧ n < 16 ∧ (c.toNat = 55 + n ∨ c.toNat = 87 + n))

/-- A byte written as `%` and two hexadecimal digits. -/
inductive EscByte : UInt8 → Text → Prop where
  | mk {b : UInt8} {x y : Char} : IsHex x (b.toNat / 16) → IsHex y (b.toNat % 16) → EscByte b ['%', x, y]

/-- Bytes written as escapes. -/
inductive EscBytes : Bytes → Text → Prop where
  | nil : EscBytes [] []
  | cons {b : UInt8} {bs : Bytes} {e es : Text} : EscByte b e → EscBytes bs es → EscBytes (b :: bs) (e ++ es)

/-- The bytes a text stands for in a query: `%` with two hexadecimal digits stands for a byte, every other
character for its own bytes. -/
inductive Unescaped : Text → Bytes → Prop where
  | nil : Unescaped [] []
  | esc {b : UInt8} {e t : Text} {bs : Bytes} : EscByte b e → Unescaped t bs → Unescaped (e ++ t) (b :: bs)
  | raw {c : Char} {t : Text} {bs : Bytes} : (∀ b e rest, EscByte b e → c :: t ≠ e ++ rest) →
      Unescaped t bs → Unescaped (c :: t) (utf8 [c] ++ bs)

/-- `e` is a way to write the text `t` in a query: `%`, `&` and `=` as escapes of their bytes, every other
character as itself or as escapes of the bytes of its UTF-8 encoding. -/
inductive UrlEncoded : (t e : Text) → Prop where
  | nil : UrlEncoded [] []
  | raw {c : Char} {t e : Text} : c ≠ '%' → c ≠ '&' → c ≠ '=' → UrlEncoded t e → UrlEncoded (c :: t) (c :: e)
  | esc {c : Char} {t x e : Text} : EscBytes (utf8 [c]) x → UrlEncoded t e → UrlEncoded (c :: t) (x ++ e)

/-- Parts of a query written for a list of parameters. -/
inductive EncodedParams : List (Text × Text) → List Text → Prop where
  | nil : EncodedParams [] []
  | cons {n v en ev : Text} {ps : List (Text × Text)} {parts : List Text} :
      UrlEncoded n en → UrlEncoded v ev → EncodedParams ps parts →
      EncodedParams ((n, v) :: ps) ((en ++ '=' :: ev) :: parts)

/-- The values given for a name, in order. -/
def valuesFor (ps : List (Text × Text)) (name : Text) : List Text :=
  (ps.filter fun p => p.1 = name).map Prod.snd

end Verif.Spec

namespace Verif.Spec

/-- The letters of ASCII, capital and small. -/
def letters : List (Char × Char) :=
  [('A', 'a'), ('B', 'b'), ('C', 'c'), ('D', 'd'), ('E', 'e'), ('F', 'f'), ('G', 'g'), ('H', 'h'), ('I', 'i'),
   ('J', 'j'), ('K', 'k'), ('L', 'l'), ('M', 'm'), ('N', 'n'), ('O', 'o'), ('P', 'p'), ('Q', 'q'), ('R', 'r'),
   ('S', 's'), ('T', 't'), ('U', 'u'), ('V', 'v'), ('W', 'w'), ('X', 'x'), ('Y', 'y'), ('Z', 'z')]

/-- A capital letter as the small one; other characters unchanged. -/
def small (c : Char) : Char := ((letters.find? fun p => p.1 == c).map Prod.snd).getD c

/-- A small letter as the capital one; other characters unchanged. -/
def capital (c : Char) : Char := ((letters.find? fun p => p.2 == c).map Prod.fst).getD c

end Verif.Spec

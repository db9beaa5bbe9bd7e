import Verif.Enc.SpaceProps
/-!
# The grammar of JSON (RFC 8259), as relations between texts and the nodes they mean

Independent of the parser of Enc/Json.lean. What `enc.JSON.Decode` (enc/json.go L74-86) is expected to accept: `JVal d t n` says that `t` is
a JSON value without surrounding white space, nested at most `d` deep, that means `n`.
-/
set_option autoImplicit false
namespace Verif.Enc
open Verif.Strconv

/-- The hexadecimal digits and their values. -/
def hexTable : List (Char × Nat) :=
  [('0', 0), ('1', 1), ('2', 2), ('3', 3), ('4', 4), ('5', 5), ('6', 6), ('7', 7), ('8', 8), ('9', 9),
   ('a', 10), ('b', 11), ('c', 12), ('d', 13), ('e', 14), ('f', 15), ('A', 10), ('B', 11), ('C', 12), ('D', 13), ('E', 14), ('F', 15)]

/-- The escapes of one character and what they stand for. -/
def escapes : List (Char × Char) :=
  [('"', '"'), ('\\', '\\'), ('/', '/'), ('b', Char.ofNat 8), ('f', Char.ofNat 12), ('n', '\n'), ('r', '\r'), ('t', '\t')]

/-- Four hexadecimal digits that write `u`. -/
def Unit4 (a b c d : Char) (u : Nat) : Prop :=
  ∃ p q r s, (a, p) ∈ hexTable ∧ (b, q) ∈ hexTable ∧ (c, r) ∈ hexTable ∧ (d, s) ∈ hexTable ∧ u = p * 4096 + q * 256 + r * 16 + s

/-- The first half of a surrogate pair. -/
def High (u : Nat) : Prop := 0xD800 ≤ u ∧ u ≤ 0xDBFF
/-- The second half. -/
def Low (u : Nat) : Prop := 0xDC00 ≤ u ∧ u ≤ 0xDFFF

/-- The text starts with the escape of the second half of a pair. -/
def LowNext (t : Str) : Prop := ∃ a b c d v r, t = '\\' :: 'u' :: a :: b :: c :: d :: r ∧ Unit4 a b c d v ∧ Low v

/-- The text between the quotes, and the characters it stands for. Halves of surrogate pairs that do not form a pair stand for U+FFFD. -/
inductive JStr : Str → Str → Prop
  | nil : JStr [] []
  | plain (c : Char) (t s : Str) : 32 ≤ c.toNat → c ≠ '"' → c ≠ '\\' → JStr t s → JStr (c :: t) (c :: s)
  | esc (e c : Char) (t s : Str) : (e, c) ∈ escapes → JStr t s → JStr ('\\' :: e :: t) (c :: s)
  | unit (a b c d : Char) (u : Nat) (t s : Str) : Unit4 a b c d u → ¬ High u → ¬ Low u → JStr t s →
      JStr ('\\' :: 'u' :: a :: b :: c :: d :: t) (Char.ofNat u :: s)
  | pair (a b c d a' b' c' d' : Char) (u v : Nat) (t s : Str) : Unit4 a b c d u → High u → Unit4 a' b' c' d' v → Low v → JStr t s →
      JStr ('\\' :: 'u' :: a :: b :: c :: d :: '\\' :: 'u' :: a' :: b' :: c' :: d' :: t)
        (Char.ofNat ((u - 0xD800) * 0x400 + (v - 0xDC00) + 0x10000) :: s)
  | lone (a b c d : Char) (u : Nat) (t s : Str) : Unit4 a b c d u → (High u ∧ ¬ LowNext t ∨ Low u) → JStr t s →
      JStr ('\\' :: 'u' :: a :: b :: c :: d :: t) (Char.ofNat 0xFFFD :: s)

/-- One or more decimal digits. -/
def Digits1 (s : Str) : Prop := s ≠ [] ∧ ∀ c ∈ s, '0' ≤ c ∧ c ≤ '9'

/-- A number: sign, integer part without leading zeros, fraction, exponent. -/
def JNum (t : Str) : Prop :=
  ∃ sg i f e, t = sg ++ (i ++ (f ++ e)) ∧ (sg = [] ∨ sg = ['-']) ∧ (i = ['0'] ∨ Digits1 i ∧ i.head? ≠ some '0') ∧
    (f = [] ∨ ∃ ds, f = '.' :: ds ∧ Digits1 ds) ∧
    (e = [] ∨ ∃ x sg' ds, e = x :: (sg' ++ ds) ∧ (x = 'e' ∨ x = 'E') ∧ (sg' = [] ∨ sg' = ['+'] ∨ sg' = ['-']) ∧ Digits1 ds)

mutual
/-- A value. -/
inductive JVal {X : Ext} : Nat → Str → Node X → Prop
  | null (d : Nat) : JVal d (lit "null") .nil
  | tru (d : Nat) : JVal d (lit "true") (.bool true)
  | fls (d : Nat) : JVal d (lit "false") (.bool false)
  | str (d : Nat) (t s : Str) : JStr t s → JVal d ('"' :: (t ++ ['"'])) (.str s)
  | num (d : Nat) (t : Str) : JNum t → JVal d t (.digits t)
  | noElems (d : Nat) (w : Str) : Blank w → JVal (d + 1) ('[' :: (w ++ [']'])) (.list [])
  | elems (d : Nat) (t : Str) (l : List (Node X)) : JElems d t l → JVal (d + 1) ('[' :: (t ++ [']'])) (.list l)
  | noMembers (d : Nat) (w : Str) : Blank w → JVal (d + 1) ('{' :: (w ++ ['}'])) (.map [])
  | members (d : Nat) (t : Str) (m : List (Str × Node X)) : JMembers d t m → JVal (d + 1) ('{' :: (t ++ ['}'])) (.map (ofEntries m))
/-- The elements of an array. -/
inductive JElems {X : Ext} : Nat → Str → List (Node X) → Prop
  | one (d : Nat) (w t w' : Str) (n : Node X) : Blank w → JVal d t n → Blank w' → JElems d (w ++ (t ++ w')) [n]
  | more (d : Nat) (w t w' ts : Str) (n : Node X) (l : List (Node X)) : Blank w → JVal d t n → Blank w' → JElems d ts l →
      JElems d (w ++ (t ++ (w' ++ ',' :: ts))) (n :: l)
/-- The members of an object, in the order they are written. -/
inductive JMembers {X : Ext} : Nat → Str → List (Str × Node X) → Prop
  | one (d : Nat) (w k s w1 w2 t w3 : Str) (n : Node X) : Blank w → JStr k s → Blank w1 → Blank w2 → JVal d t n → Blank w3 →
      JMembers d (w ++ '"' :: (k ++ '"' :: (w1 ++ ':' :: (w2 ++ (t ++ w3))))) [(s, n)]
  | more (d : Nat) (w k s w1 w2 t w3 ts : Str) (n : Node X) (m : List (Str × Node X)) : Blank w → JStr k s → Blank w1 → Blank w2 →
      JVal d t n → Blank w3 → JMembers d ts m →
      JMembers d (w ++ '"' :: (k ++ '"' :: (w1 ++ ':' :: (w2 ++ (t ++ (w3 ++ ',' :: ts)))))) ((s, n) :: m)
end

end Verif.Enc

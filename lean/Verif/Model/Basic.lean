/-
Shared vocabulary of the model: bytes and character tests of the "C" locale.
-/
namespace Wv

/-- A byte of a buffer or of a C string. -/
abbrev Byte := UInt8

/-- The byte of an ASCII character literal of the C++ text. -/
def ch (c : Char) : Byte := UInt8.ofNat c.toNat

/-- A C string constant of the C++ text, as the list of its bytes (without the terminating NUL). -/
def str (cs : List Char) : List Byte := cs.map ch

/-- `isdigit` of <ctype.h> in the "C" locale. -/
def isdigit (c : Byte) : Bool := ch '0' ≤ c && c ≤ ch '9'

/-- `isupper` of <ctype.h> in the "C" locale. -/
def isupper (c : Byte) : Bool := ch 'A' ≤ c && c ≤ ch 'Z'

/-- `islower` of <ctype.h> in the "C" locale. -/
def islower (c : Byte) : Bool := ch 'a' ≤ c && c ≤ ch 'z'

/-- `isalpha` of <ctype.h> in the "C" locale. -/
def isalpha (c : Byte) : Bool := isupper c || islower c

/-- `isalnum` of <ctype.h> in the "C" locale. -/
def isalnum (c : Byte) : Bool := isalpha c || isdigit c

/-- `isxdigit` of <ctype.h> in the "C" locale. -/
def isxdigit (c : Byte) : Bool :=
  isdigit c || (ch 'A' ≤ c && c ≤ ch 'F') || (ch 'a' ≤ c && c ≤ ch 'f')

/-- `isspace` of <ctype.h> in the "C" locale: space, \t \n \v \f \r. -/
def isspace (c : Byte) : Bool := c == 32 || (9 ≤ c && c ≤ 13)

/-- `isprint` of <ctype.h> in the "C" locale. -/
def isprint (c : Byte) : Bool := 32 ≤ c && c ≤ 126

/-- `tolower` of <ctype.h> in the "C" locale. -/
def tolower (c : Byte) : Byte := if isupper c then c + 32 else c

/-- `toupper` of <ctype.h> in the "C" locale. -/
def toupper (c : Byte) : Byte := if islower c then c - 32 else c

end Wv

/-!
# White space

The property `White_Space` of Unicode (PropList.txt), which `char::is_whitespace` of Rust stands for, one character after the other.
-/

namespace Abe

/-- The characters with the property `White_Space`: tab, line feed, line tabulation, form feed, carriage return, space, next line, no-break space, Ogham space mark,
the eleven spaces from en quad to hair space, line and paragraph separator, narrow no-break space, medium mathematical space, ideographic space. -/
def whiteSpace : List Nat :=
  [0x0009, 0x000A, 0x000B, 0x000C, 0x000D, 0x0020, 0x0085, 0x00A0, 0x1680, 0x2000, 0x2001, 0x2002, 0x2003, 0x2004, 0x2005, 0x2006, 0x2007, 0x2008, 0x2009, 0x200A,
    0x2028, 0x2029, 0x202F, 0x205F, 0x3000]

end Abe

/-
The entity table of source/expression_filter.cpp, generated from the source text: the bytes of the
name and the code point, in the order of the source.
-/
namespace Verif.Entity

/-- A row of the table (`pair<string, uint32_t>`). -/
abbrev Entry := List Nat × Nat

/-- models: source/expression_filter.cpp:124-387 `default_entry_set` (names as bytes): Aacute, aacute, Acirc, acirc ... zwj, zwnj, apos. -/
def codePointSet : List Entry := [
  ([65, 97, 99, 117, 116, 101], 0x00C1),
  ([97, 97, 99, 117, 116, 101], 0x00E1),
  ([65, 99, 105, 114, 99], 0x00C2),
  ([97, 99, 105, 114, 99], 0x00E2),
  ([97, 99, 117, 116, 101], 0x00B4),
  ([65, 69, 108, 105, 103], 0x00C6),
  ([97, 101, 108, 105, 103], 0x00E6),
  ([65, 103, 114, 97, 118, 101], 0x00C0),
  ([97, 103, 114, 97, 118, 101], 0x00E0),
  ([97, 108, 101, 102, 115, 121, 109], 0x2135),
  ([65, 108, 112, 104, 97], 0x0391),
  ([97, 108, 112, 104, 97], 0x03B1),
  ([97, 109, 112], 0x0026),
  ([97, 110, 100], 0x2227),
  ([97, 110, 103], 0x2220),
  ([65, 114, 105, 110, 103], 0x00C5),
  ([97, 114, 105, 110, 103], 0x00E5),
  ([97, 115, 121, 109, 112], 0x2248),
  ([65, 116, 105, 108, 100, 101], 0x00C3),
  ([97, 116, 105, 108, 100, 101], 0x00E3),
  ([65, 117, 109, 108], 0x00C4),
  ([97, 117, 109, 108], 0x00E4),
  ([98, 100, 113, 117, 111], 0x201E),
  ([66, 101, 116, 97], 0x0392),
  ([98, 101, 116, 97], 0x03B2),
  ([98, 114, 118, 98, 97, 114], 0x00A6),
  ([98, 117, 108, 108], 0x2022),
  ([99, 97, 112], 0x2229),
  ([67, 99, 101, 100, 105, 108], 0x00C7),
  ([99, 99, 101, 100, 105, 108], 0x00E7),
  ([99, 101, 100, 105, 108], 0x00B8),
  ([99, 101, 110, 116], 0x00A2),
  ([67, 104, 105], 0x03A7),
  ([99, 104, 105], 0x03C7),
  ([99, 105, 114, 99], 0x02C6),
  ([99, 108, 117, 98, 115], 0x2663),
  ([99, 111, 110, 103], 0x2245),
  ([99, 111, 112, 121], 0x00A9),
  ([99, 114], 0x000D),
  ([99, 114, 97, 114, 114], 0x21B5),
  ([99, 117, 112], 0x222A),
  ([99, 117, 114, 114, 101, 110], 0x00A4),
  ([100, 97, 103, 103, 101, 114], 0x2020),
  ([68, 97, 103, 103, 101, 114], 0x2021),
  ([100, 97, 114, 114], 0x2193),
  ([100, 65, 114, 114], 0x21D3),
  ([100, 101, 103], 0x00B0),
  ([68, 101, 108, 116, 97], 0x0394),
  ([100, 101, 108, 116, 97], 0x03B4),
  ([100, 105, 97, 109, 115], 0x2666),
  ([100, 105, 118, 105, 100, 101], 0x00F7),
  ([69, 97, 99, 117, 116, 101], 0x00C9),
  ([101, 97, 99, 117, 116, 101], 0x00E9),
  ([69, 99, 105, 114, 99], 0x00CA),
  ([101, 99, 105, 114, 99], 0x00EA),
  ([69, 103, 114, 97, 118, 101], 0x00C8),
  ([101, 103, 114, 97, 118, 101], 0x00E8),
  ([101, 109, 112, 116, 121], 0x2205),
  ([101, 109, 115, 112], 0x2003),
  ([101, 110, 115, 112], 0x2002),
  ([69, 112, 115, 105, 108, 111, 110], 0x0395),
  ([101, 112, 115, 105, 108, 111, 110], 0x03B5),
  ([101, 113, 117, 105, 118], 0x2261),
  ([69, 116, 97], 0x0397),
  ([101, 116, 97], 0x03B7),
  ([69, 84, 72], 0x00D0),
  ([101, 116, 104], 0x00F0),
  ([69, 117, 109, 108], 0x00CB),
  ([101, 117, 109, 108], 0x00EB),
  ([101, 117, 114, 111], 0x20AC),
  ([101, 120, 105, 115, 116], 0x2203),
  ([102, 110, 111, 102], 0x0192),
  ([102, 111, 114, 97, 108, 108], 0x2200),
  ([102, 114, 97, 99, 49, 50], 0x00BD),
  ([102, 114, 97, 99, 49, 52], 0x00BC),
  ([102, 114, 97, 99, 51, 52], 0x00BE),
  ([102, 114, 97, 115, 108], 0x2044),
  ([71, 97, 109, 109, 97], 0x0393),
  ([103, 97, 109, 109, 97], 0x03B3),
  ([103, 101], 0x2265),
  ([103, 116], 0x003E),
  ([104, 97, 114, 114], 0x2194),
  ([104, 65, 114, 114], 0x21D4),
  ([104, 101, 97, 114, 116, 115], 0x2665),
  ([104, 101, 108, 108, 105, 112], 0x2026),
  ([73, 97, 99, 117, 116, 101], 0x00CD),
  ([105, 97, 99, 117, 116, 101], 0x00ED),
  ([73, 99, 105, 114, 99], 0x00CE),
  ([105, 99, 105, 114, 99], 0x00EE),
  ([105, 101, 120, 99, 108], 0x00A1),
  ([73, 103, 114, 97, 118, 101], 0x00CC),
  ([105, 103, 114, 97, 118, 101], 0x00EC),
  ([105, 109, 97, 103, 101], 0x2111),
  ([105, 110, 102, 105, 110], 0x221E),
  ([105, 110, 116], 0x222B),
  ([73, 111, 116, 97], 0x0399),
  ([105, 111, 116, 97], 0x03B9),
  ([105, 113, 117, 101, 115, 116], 0x00BF),
  ([105, 115, 105, 110], 0x2208),
  ([73, 117, 109, 108], 0x00CF),
  ([105, 117, 109, 108], 0x00EF),
  ([75, 97, 112, 112, 97], 0x039A),
  ([107, 97, 112, 112, 97], 0x03BA),
  ([76, 97, 109, 98, 100, 97], 0x039B),
  ([108, 97, 109, 98, 100, 97], 0x03BB),
  ([108, 97, 110, 103], 0x2329),
  ([108, 97, 113, 117, 111], 0x00AB),
  ([108, 97, 114, 114], 0x2190),
  ([108, 65, 114, 114], 0x21D0),
  ([108, 99, 101, 105, 108], 0x2308),
  ([108, 100, 113, 117, 111], 0x201C),
  ([108, 101], 0x2264),
  ([108, 102], 0x000A),
  ([108, 102, 108, 111, 111, 114], 0x230A),
  ([108, 111, 119, 97, 115, 116], 0x2217),
  ([108, 111, 122], 0x25CA),
  ([108, 114, 109], 0x200E),
  ([108, 115, 97, 113, 117, 111], 0x2039),
  ([108, 115, 113, 117, 111], 0x2018),
  ([108, 116], 0x003C),
  ([109, 97, 99, 114], 0x00AF),
  ([109, 100, 97, 115, 104], 0x2014),
  ([109, 105, 99, 114, 111], 0x00B5),
  ([109, 105, 100, 100, 111, 116], 0x00B7),
  ([109, 105, 110, 117, 115], 0x2212),
  ([77, 117], 0x039C),
  ([109, 117], 0x03BC),
  ([110, 97, 98, 108, 97], 0x2207),
  ([110, 98, 115, 112], 0x00A0),
  ([110, 100, 97, 115, 104], 0x2013),
  ([110, 101], 0x2260),
  ([110, 105], 0x220B),
  ([110, 111, 116], 0x00AC),
  ([110, 111, 116, 105, 110], 0x2209),
  ([110, 115, 117, 98], 0x2284),
  ([78, 116, 105, 108, 100, 101], 0x00D1),
  ([110, 116, 105, 108, 100, 101], 0x00F1),
  ([78, 117], 0x039D),
  ([110, 117], 0x03BD),
  ([79, 97, 99, 117, 116, 101], 0x00D3),
  ([111, 97, 99, 117, 116, 101], 0x00F3),
  ([79, 99, 105, 114, 99], 0x00D4),
  ([111, 99, 105, 114, 99], 0x00F4),
  ([79, 69, 108, 105, 103], 0x0152),
  ([111, 101, 108, 105, 103], 0x0153),
  ([79, 103, 114, 97, 118, 101], 0x00D2),
  ([111, 103, 114, 97, 118, 101], 0x00F2),
  ([111, 108, 105, 110, 101], 0x203E),
  ([79, 109, 101, 103, 97], 0x03A9),
  ([111, 109, 101, 103, 97], 0x03C9),
  ([79, 109, 105, 99, 114, 111, 110], 0x039F),
  ([111, 109, 105, 99, 114, 111, 110], 0x03BF),
  ([111, 112, 108, 117, 115], 0x2295),
  ([111, 114], 0x2228),
  ([111, 114, 100, 102], 0x00AA),
  ([111, 114, 100, 109], 0x00BA),
  ([79, 115, 108, 97, 115, 104], 0x00D8),
  ([111, 115, 108, 97, 115, 104], 0x00F8),
  ([79, 116, 105, 108, 100, 101], 0x00D5),
  ([111, 116, 105, 108, 100, 101], 0x00F5),
  ([111, 116, 105, 109, 101, 115], 0x2297),
  ([79, 117, 109, 108], 0x00D6),
  ([111, 117, 109, 108], 0x00F6),
  ([112, 97, 114, 97], 0x00B6),
  ([112, 97, 114, 116], 0x2202),
  ([112, 101, 114, 109, 105, 108], 0x2030),
  ([112, 101, 114, 112], 0x22A5),
  ([80, 104, 105], 0x03A6),
  ([112, 104, 105], 0x03C6),
  ([80, 105], 0x03A0),
  ([112, 105], 0x03C0),
  ([112, 105, 118], 0x03D6),
  ([112, 108, 117, 115, 109, 110], 0x00B1),
  ([112, 111, 117, 110, 100], 0x00A3),
  ([112, 114, 105, 109, 101], 0x2032),
  ([80, 114, 105, 109, 101], 0x2033),
  ([112, 114, 111, 100], 0x220F),
  ([112, 114, 111, 112], 0x221D),
  ([80, 115, 105], 0x03A8),
  ([112, 115, 105], 0x03C8),
  ([113, 117, 111, 116], 0x0022),
  ([114, 97, 100, 105, 99], 0x221A),
  ([114, 97, 110, 103], 0x232A),
  ([114, 97, 113, 117, 111], 0x00BB),
  ([114, 97, 114, 114], 0x2192),
  ([114, 65, 114, 114], 0x21D2),
  ([114, 99, 101, 105, 108], 0x2309),
  ([114, 100, 113, 117, 111], 0x201D),
  ([114, 101, 97, 108], 0x211C),
  ([114, 101, 103], 0x00AE),
  ([114, 102, 108, 111, 111, 114], 0x230B),
  ([82, 104, 111], 0x03A1),
  ([114, 104, 111], 0x03C1),
  ([114, 108, 109], 0x200F),
  ([114, 115, 97, 113, 117, 111], 0x203A),
  ([114, 115, 113, 117, 111], 0x2019),
  ([115, 98, 113, 117, 111], 0x201A),
  ([83, 99, 97, 114, 111, 110], 0x0160),
  ([115, 99, 97, 114, 111, 110], 0x0161),
  ([115, 100, 111, 116], 0x22C5),
  ([115, 101, 99, 116], 0x00A7),
  ([115, 104, 121], 0x00AD),
  ([83, 105, 103, 109, 97], 0x03A3),
  ([115, 105, 103, 109, 97], 0x03C3),
  ([115, 105, 103, 109, 97, 102], 0x03C2),
  ([115, 105, 109], 0x223C),
  ([115, 112, 97, 100, 101, 115], 0x2660),
  ([115, 117, 98], 0x2282),
  ([115, 117, 98, 101], 0x2286),
  ([115, 117, 109], 0x2211),
  ([115, 117, 112], 0x2283),
  ([115, 117, 112, 49], 0x00B9),
  ([115, 117, 112, 50], 0x00B2),
  ([115, 117, 112, 51], 0x00B3),
  ([115, 117, 112, 101], 0x2287),
  ([115, 122, 108, 105, 103], 0x00DF),
  ([116, 97, 98], 0x0009),
  ([84, 97, 117], 0x03A4),
  ([116, 97, 117], 0x03C4),
  ([116, 104, 101, 114, 101, 52], 0x2234),
  ([84, 104, 101, 116, 97], 0x0398),
  ([116, 104, 101, 116, 97], 0x03B8),
  ([116, 104, 101, 116, 97, 115, 121, 109], 0x03D1),
  ([116, 104, 105, 110, 115, 112], 0x2009),
  ([84, 72, 79, 82, 78], 0x00DE),
  ([116, 104, 111, 114, 110], 0x00FE),
  ([116, 105, 108, 100, 101], 0x02DC),
  ([116, 105, 109, 101, 115], 0x00D7),
  ([116, 114, 97, 100, 101], 0x2122),
  ([85, 97, 99, 117, 116, 101], 0x00DA),
  ([117, 97, 99, 117, 116, 101], 0x00FA),
  ([117, 97, 114, 114], 0x2191),
  ([117, 65, 114, 114], 0x21D1),
  ([85, 99, 105, 114, 99], 0x00DB),
  ([117, 99, 105, 114, 99], 0x00FB),
  ([85, 103, 114, 97, 118, 101], 0x00D9),
  ([117, 103, 114, 97, 118, 101], 0x00F9),
  ([117, 109, 108], 0x00A8),
  ([117, 112, 115, 105, 104], 0x03D2),
  ([85, 112, 115, 105, 108, 111, 110], 0x03A5),
  ([117, 112, 115, 105, 108, 111, 110], 0x03C5),
  ([85, 117, 109, 108], 0x00DC),
  ([117, 117, 109, 108], 0x00FC),
  ([119, 101, 105, 101, 114, 112], 0x2118),
  ([88, 105], 0x039E),
  ([120, 105], 0x03BE),
  ([89, 97, 99, 117, 116, 101], 0x00DD),
  ([121, 97, 99, 117, 116, 101], 0x00FD),
  ([121, 101, 110], 0x00A5),
  ([121, 117, 109, 108], 0x00FF),
  ([89, 117, 109, 108], 0x0178),
  ([90, 101, 116, 97], 0x0396),
  ([122, 101, 116, 97], 0x03B6),
  ([122, 119, 106], 0x200D),
  ([122, 119, 110, 106], 0x200C),
  ([97, 112, 111, 115], 0x0027)]

end Verif.Entity

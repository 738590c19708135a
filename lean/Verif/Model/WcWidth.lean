import Verif.Model.Ellipsify
/-
Model of the width of one character, `wcwidth` (clink/terminal/src/wcwidth.cpp:94-437, 511-537, 628-664, 752-802), with
its tables.

A character is a number.  A table is a list of intervals.  Reading outside of a table is `none`.
Fonts are not modelled: what `get_wcwidth_from_font` gives is a parameter, and that the widths are kept in a map is
left out.  The setting and the environment variable that override each other (lines 763-781) are not modelled; `Mode` is
what they give, `s_resolve`.
-/
namespace Clink.WcWidth

abbrev Table := List (Nat × Nat)

/-- The loop of `bisearch` (terminal/src/wcwidth.cpp:100-108). -/
def search (t : Table) (c : Nat) (min max : Int) : Option Bool :=
  if h : max ≥ min then
    if (min + max) / 2 < 0 then none
    else
      match t[((min + max) / 2).toNat]? with
      | none => none
      | some p =>
        if c > p.2 then search t c ((min + max) / 2 + 1) max
        else if c < p.1 then search t c min ((min + max) / 2 - 1)
        else some true
  else some false
termination_by (max - min + 1).toNat
decreasing_by all_goals omega

/-- `bisearch(ucs, table, _countof(table) - 1)` (terminal/src/wcwidth.cpp:94-111). -/
def bisearch (t : Table) (c : Nat) : Option Bool :=
  match t[0]?, t[t.length - 1]? with
  | some a, some b => if c < a.1 ∨ c > b.2 then some false else search t c 0 ((t.length : Int) - 1)
  | _, _ => none

/-- `emojis` (terminal/src/emoji-test.i:3-87). -/
def emojis : Table :=
  [(0x231A, 0x231B), (0x23E9, 0x23EC), (0x23F0, 0x23F0), (0x23F3, 0x23F3), (0x25FD, 0x25FE), (0x2614, 0x2615),
   (0x2648, 0x2653), (0x267F, 0x267F), (0x2693, 0x2693), (0x26A1, 0x26A1), (0x26AA, 0x26AB), (0x26BD, 0x26BE),
   (0x26C4, 0x26C5), (0x26CE, 0x26CE), (0x26D4, 0x26D4), (0x26EA, 0x26EA), (0x26F2, 0x26F3), (0x26F5, 0x26F5),
   (0x26FA, 0x26FA), (0x26FD, 0x26FD), (0x2705, 0x2705), (0x270A, 0x270B), (0x2728, 0x2728), (0x274C, 0x274C),
   (0x274E, 0x274E), (0x2753, 0x2755), (0x2757, 0x2757), (0x2795, 0x2797), (0x27B0, 0x27B0), (0x27BF, 0x27BF),
   (0x2B1B, 0x2B1C), (0x2B50, 0x2B50), (0x2B55, 0x2B55), (0x1F004, 0x1F004), (0x1F0CF, 0x1F0CF), (0x1F18E, 0x1F18E),
   (0x1F191, 0x1F19A), (0x1F201, 0x1F201), (0x1F21A, 0x1F21A), (0x1F22F, 0x1F22F), (0x1F232, 0x1F236),
   (0x1F238, 0x1F23A), (0x1F250, 0x1F251), (0x1F300, 0x1F320), (0x1F32D, 0x1F335), (0x1F337, 0x1F37C),
   (0x1F37E, 0x1F393), (0x1F3A0, 0x1F3CA), (0x1F3CF, 0x1F3D3), (0x1F3E0, 0x1F3F0), (0x1F3F4, 0x1F3F4),
   (0x1F3F8, 0x1F3FA), (0x1F400, 0x1F43E), (0x1F440, 0x1F440), (0x1F442, 0x1F4FC), (0x1F4FF, 0x1F53D),
   (0x1F54B, 0x1F54E), (0x1F550, 0x1F567), (0x1F57A, 0x1F57A), (0x1F595, 0x1F596), (0x1F5A4, 0x1F5A4),
   (0x1F5FB, 0x1F64F), (0x1F680, 0x1F6C5), (0x1F6CC, 0x1F6CC), (0x1F6D0, 0x1F6D2), (0x1F6D5, 0x1F6D7),
   (0x1F6DC, 0x1F6DF), (0x1F6EB, 0x1F6EC), (0x1F6F4, 0x1F6FC), (0x1F7E0, 0x1F7EB), (0x1F7F0, 0x1F7F0),
   (0x1F90C, 0x1F93A), (0x1F93C, 0x1F945), (0x1F947, 0x1F9FF), (0x1FA70, 0x1FA7C), (0x1FA80, 0x1FA88),
   (0x1FA90, 0x1FABD), (0x1FABF, 0x1FAC5), (0x1FACE, 0x1FADB), (0x1FAE0, 0x1FAE8), (0x1FAF0, 0x1FAF8)]

/-- `possible_unqualified_half_width` (terminal/src/emoji-test.i:129-248). -/
def unqualified : Table :=
  [(0xA9, 0xA9), (0xAE, 0xAE), (0x203C, 0x203C), (0x2049, 0x2049), (0x2122, 0x2122), (0x2139, 0x2139),
   (0x2194, 0x2199), (0x21A9, 0x21AA), (0x2328, 0x2328), (0x23CF, 0x23CF), (0x23ED, 0x23EF), (0x23F1, 0x23F2),
   (0x23F8, 0x23FA), (0x24C2, 0x24C2), (0x25AA, 0x25AB), (0x25B6, 0x25B6), (0x25C0, 0x25C0), (0x25FB, 0x25FC),
   (0x2600, 0x2604), (0x260E, 0x260E), (0x2611, 0x2611), (0x2618, 0x2618), (0x261D, 0x261D), (0x2620, 0x2620),
   (0x2622, 0x2623), (0x2626, 0x2626), (0x262A, 0x262A), (0x262E, 0x262F), (0x2638, 0x263A), (0x2640, 0x2640),
   (0x2642, 0x2642), (0x265F, 0x2660), (0x2663, 0x2663), (0x2665, 0x2666), (0x2668, 0x2668), (0x267B, 0x267B),
   (0x267E, 0x267E), (0x2692, 0x2692), (0x2694, 0x2697), (0x2699, 0x2699), (0x269B, 0x269C), (0x26A0, 0x26A0),
   (0x26A7, 0x26A7), (0x26B0, 0x26B1), (0x26C8, 0x26C8), (0x26CF, 0x26CF), (0x26D1, 0x26D1), (0x26D3, 0x26D3),
   (0x26E9, 0x26E9), (0x26F0, 0x26F1), (0x26F4, 0x26F4), (0x26F7, 0x26F9), (0x2702, 0x2702), (0x2708, 0x2709),
   (0x270C, 0x270D), (0x270F, 0x270F), (0x2712, 0x2712), (0x2714, 0x2714), (0x2716, 0x2716), (0x271D, 0x271D),
   (0x2721, 0x2721), (0x2733, 0x2734), (0x2744, 0x2744), (0x2747, 0x2747), (0x2763, 0x2764), (0x27A1, 0x27A1),
   (0x2934, 0x2935), (0x2B05, 0x2B07), (0x3030, 0x3030), (0x303D, 0x303D), (0x3297, 0x3297), (0x3299, 0x3299),
   (0x1F170, 0x1F171), (0x1F17E, 0x1F17F), (0x1F202, 0x1F202), (0x1F237, 0x1F237), (0x1F321, 0x1F321),
   (0x1F324, 0x1F32C), (0x1F336, 0x1F336), (0x1F37D, 0x1F37D), (0x1F396, 0x1F397), (0x1F399, 0x1F39B),
   (0x1F39E, 0x1F39F), (0x1F3CB, 0x1F3CE), (0x1F3D4, 0x1F3DF), (0x1F3F3, 0x1F3F3), (0x1F3F5, 0x1F3F5),
   (0x1F3F7, 0x1F3F7), (0x1F43F, 0x1F43F), (0x1F441, 0x1F441), (0x1F4FD, 0x1F4FD), (0x1F549, 0x1F54A),
   (0x1F56F, 0x1F570), (0x1F573, 0x1F579), (0x1F587, 0x1F587), (0x1F58A, 0x1F58D), (0x1F590, 0x1F590),
   (0x1F5A5, 0x1F5A5), (0x1F5A8, 0x1F5A8), (0x1F5B1, 0x1F5B2), (0x1F5BC, 0x1F5BC), (0x1F5C2, 0x1F5C4),
   (0x1F5D1, 0x1F5D3), (0x1F5DC, 0x1F5DE), (0x1F5E1, 0x1F5E1), (0x1F5E3, 0x1F5E3), (0x1F5E8, 0x1F5E8),
   (0x1F5EF, 0x1F5EF), (0x1F5F3, 0x1F5F3), (0x1F5FA, 0x1F5FA), (0x1F6CB, 0x1F6CB), (0x1F6CD, 0x1F6CF),
   (0x1F6E0, 0x1F6E5), (0x1F6E9, 0x1F6E9), (0x1F6F0, 0x1F6F0), (0x1F6F3, 0x1F6F3)]

/-- `halfwidth_exceptions` (terminal/src/wcwidth.cpp:116-120). -/
def halfwidth : Table :=
  [(0x303F, 0x303F), (0x3248, 0x324F), (0x4DC0, 0x4DFF)]

/-- `combining` (terminal/src/wcwidth.cpp:126-175). -/
def combining : Table :=
  [(0x300, 0x36F), (0x483, 0x486), (0x488, 0x489), (0x591, 0x5BD), (0x5BF, 0x5BF), (0x5C1, 0x5C2), (0x5C4, 0x5C5),
   (0x5C7, 0x5C7), (0x600, 0x603), (0x610, 0x615), (0x64B, 0x65E), (0x670, 0x670), (0x6D6, 0x6E4), (0x6E7, 0x6E8),
   (0x6EA, 0x6ED), (0x70F, 0x70F), (0x711, 0x711), (0x730, 0x74A), (0x7A6, 0x7B0), (0x7EB, 0x7F3), (0x901, 0x902),
   (0x93C, 0x93C), (0x941, 0x948), (0x94D, 0x94D), (0x951, 0x954), (0x962, 0x963), (0x981, 0x981), (0x9BC, 0x9BC),
   (0x9C1, 0x9C4), (0x9CD, 0x9CD), (0x9E2, 0x9E3), (0xA01, 0xA02), (0xA3C, 0xA3C), (0xA41, 0xA42), (0xA47, 0xA48),
   (0xA4B, 0xA4D), (0xA70, 0xA71), (0xA81, 0xA82), (0xABC, 0xABC), (0xAC1, 0xAC5), (0xAC7, 0xAC8), (0xACD, 0xACD),
   (0xAE2, 0xAE3), (0xB01, 0xB01), (0xB3C, 0xB3C), (0xB3F, 0xB3F), (0xB41, 0xB43), (0xB4D, 0xB4D), (0xB56, 0xB56),
   (0xB82, 0xB82), (0xBC0, 0xBC0), (0xBCD, 0xBCD), (0xC3E, 0xC40), (0xC46, 0xC48), (0xC4A, 0xC4D), (0xC55, 0xC56),
   (0xCBC, 0xCBC), (0xCBF, 0xCBF), (0xCC6, 0xCC6), (0xCCC, 0xCCD), (0xCE2, 0xCE3), (0xD41, 0xD43), (0xD4D, 0xD4D),
   (0xDCA, 0xDCA), (0xDD2, 0xDD4), (0xDD6, 0xDD6), (0xE31, 0xE31), (0xE34, 0xE3A), (0xE47, 0xE4E), (0xEB1, 0xEB1),
   (0xEB4, 0xEB9), (0xEBB, 0xEBC), (0xEC8, 0xECD), (0xF18, 0xF19), (0xF35, 0xF35), (0xF37, 0xF37), (0xF39, 0xF39),
   (0xF71, 0xF7E), (0xF80, 0xF84), (0xF86, 0xF87), (0xF90, 0xF97), (0xF99, 0xFBC), (0xFC6, 0xFC6), (0x102D, 0x1030),
   (0x1032, 0x1032), (0x1036, 0x1037), (0x1039, 0x1039), (0x1058, 0x1059), (0x1160, 0x11FF), (0x135F, 0x135F),
   (0x1712, 0x1714), (0x1732, 0x1734), (0x1752, 0x1753), (0x1772, 0x1773), (0x17B4, 0x17B5), (0x17B7, 0x17BD),
   (0x17C6, 0x17C6), (0x17C9, 0x17D3), (0x17DD, 0x17DD), (0x180B, 0x180D), (0x18A9, 0x18A9), (0x1920, 0x1922),
   (0x1927, 0x1928), (0x1932, 0x1932), (0x1939, 0x193B), (0x1A17, 0x1A18), (0x1B00, 0x1B03), (0x1B34, 0x1B34),
   (0x1B36, 0x1B3A), (0x1B3C, 0x1B3C), (0x1B42, 0x1B42), (0x1B6B, 0x1B73), (0x1DC0, 0x1DCA), (0x1DFE, 0x1DFF),
   (0x200B, 0x200F), (0x202A, 0x202E), (0x2060, 0x2063), (0x206A, 0x206F), (0x20D0, 0x20EF), (0x302A, 0x302F),
   (0x3099, 0x309A), (0xA806, 0xA806), (0xA80B, 0xA80B), (0xA825, 0xA826), (0xFB1E, 0xFB1E), (0xFE00, 0xFE0F),
   (0xFE20, 0xFE23), (0xFEFF, 0xFEFF), (0xFFF9, 0xFFFB), (0x10A01, 0x10A03), (0x10A05, 0x10A06), (0x10A0C, 0x10A0F),
   (0x10A38, 0x10A3A), (0x10A3F, 0x10A3F), (0x1D167, 0x1D169), (0x1D173, 0x1D182), (0x1D185, 0x1D18B),
   (0x1D1AA, 0x1D1AD), (0x1D242, 0x1D244), (0x1F3FB, 0x1F3FF), (0xE0001, 0xE0001), (0xE0020, 0xE007F),
   (0xE0100, 0xE01EF)]

/-- `ucs2_fullwidth_emoji` (terminal/src/wcwidth.cpp:259-293). -/
def ucs2Emoji : Table :=
  [(0x231A, 0x231B), (0x23E9, 0x23EC), (0x23F0, 0x23F0), (0x23F3, 0x23F3), (0x25FD, 0x25FE), (0x2614, 0x2615),
   (0x2648, 0x2653), (0x267F, 0x267F), (0x2693, 0x2693), (0x26A1, 0x26A1), (0x26AA, 0x26AB), (0x26BD, 0x26BE),
   (0x26C4, 0x26C5), (0x26CE, 0x26CE), (0x26D4, 0x26D4), (0x26EA, 0x26EA), (0x26F2, 0x26F3), (0x26F5, 0x26F5),
   (0x26FA, 0x26FA), (0x26FD, 0x26FD), (0x2705, 0x2705), (0x270A, 0x270B), (0x2728, 0x2728), (0x274C, 0x274C),
   (0x274E, 0x274E), (0x2753, 0x2755), (0x2757, 0x2757), (0x2795, 0x2797), (0x27B0, 0x27B0), (0x27BF, 0x27BF),
   (0x2B1B, 0x2B1C), (0x2B50, 0x2B50), (0x2B55, 0x2B55)]

/-- `ambiguous` (terminal/src/wcwidth.cpp:358-411). -/
def ambiguous : Table :=
  [(0xA1, 0xA1), (0xA4, 0xA4), (0xA7, 0xA8), (0xAA, 0xAA), (0xAE, 0xAE), (0xB0, 0xB4), (0xB6, 0xBA), (0xBC, 0xBF),
   (0xC6, 0xC6), (0xD0, 0xD0), (0xD7, 0xD8), (0xDE, 0xE1), (0xE6, 0xE6), (0xE8, 0xEA), (0xEC, 0xED), (0xF0, 0xF0),
   (0xF2, 0xF3), (0xF7, 0xFA), (0xFC, 0xFC), (0xFE, 0xFE), (0x101, 0x101), (0x111, 0x111), (0x113, 0x113),
   (0x11B, 0x11B), (0x126, 0x127), (0x12B, 0x12B), (0x131, 0x133), (0x138, 0x138), (0x13F, 0x142), (0x144, 0x144),
   (0x148, 0x14B), (0x14D, 0x14D), (0x152, 0x153), (0x166, 0x167), (0x16B, 0x16B), (0x1CE, 0x1CE), (0x1D0, 0x1D0),
   (0x1D2, 0x1D2), (0x1D4, 0x1D4), (0x1D6, 0x1D6), (0x1D8, 0x1D8), (0x1DA, 0x1DA), (0x1DC, 0x1DC), (0x251, 0x251),
   (0x261, 0x261), (0x2C4, 0x2C4), (0x2C7, 0x2C7), (0x2C9, 0x2CB), (0x2CD, 0x2CD), (0x2D0, 0x2D0), (0x2D8, 0x2DB),
   (0x2DD, 0x2DD), (0x2DF, 0x2DF), (0x391, 0x3A1), (0x3A3, 0x3A9), (0x3B1, 0x3C1), (0x3C3, 0x3C9), (0x401, 0x401),
   (0x410, 0x44F), (0x451, 0x451), (0x2010, 0x2010), (0x2013, 0x2016), (0x2018, 0x2019), (0x201C, 0x201D),
   (0x2020, 0x2022), (0x2024, 0x2027), (0x2030, 0x2030), (0x2032, 0x2033), (0x2035, 0x2035), (0x203B, 0x203B),
   (0x203E, 0x203E), (0x2074, 0x2074), (0x207F, 0x207F), (0x2081, 0x2084), (0x20AC, 0x20AC), (0x2103, 0x2103),
   (0x2105, 0x2105), (0x2109, 0x2109), (0x2113, 0x2113), (0x2116, 0x2116), (0x2121, 0x2122), (0x2126, 0x2126),
   (0x212B, 0x212B), (0x2153, 0x2154), (0x215B, 0x215E), (0x2160, 0x216B), (0x2170, 0x2179), (0x2190, 0x2199),
   (0x21B8, 0x21B9), (0x21D2, 0x21D2), (0x21D4, 0x21D4), (0x21E7, 0x21E7), (0x2200, 0x2200), (0x2202, 0x2203),
   (0x2207, 0x2208), (0x220B, 0x220B), (0x220F, 0x220F), (0x2211, 0x2211), (0x2215, 0x2215), (0x221A, 0x221A),
   (0x221D, 0x2220), (0x2223, 0x2223), (0x2225, 0x2225), (0x2227, 0x222C), (0x222E, 0x222E), (0x2234, 0x2237),
   (0x223C, 0x223D), (0x2248, 0x2248), (0x224C, 0x224C), (0x2252, 0x2252), (0x2260, 0x2261), (0x2264, 0x2267),
   (0x226A, 0x226B), (0x226E, 0x226F), (0x2282, 0x2283), (0x2286, 0x2287), (0x2295, 0x2295), (0x2299, 0x2299),
   (0x22A5, 0x22A5), (0x22BF, 0x22BF), (0x2312, 0x2312), (0x2460, 0x24E9), (0x24EB, 0x254B), (0x2550, 0x2573),
   (0x2580, 0x258F), (0x2592, 0x2595), (0x25A0, 0x25A1), (0x25A3, 0x25A9), (0x25B2, 0x25B3), (0x25B6, 0x25B7),
   (0x25BC, 0x25BD), (0x25C0, 0x25C1), (0x25C6, 0x25C8), (0x25CB, 0x25CB), (0x25CE, 0x25D1), (0x25E2, 0x25E5),
   (0x25EF, 0x25EF), (0x2605, 0x2606), (0x2609, 0x2609), (0x260E, 0x260F), (0x2614, 0x2615), (0x261C, 0x261C),
   (0x261E, 0x261E), (0x2640, 0x2640), (0x2642, 0x2642), (0x2660, 0x2661), (0x2663, 0x2665), (0x2667, 0x266A),
   (0x266C, 0x266D), (0x266F, 0x266F), (0x273D, 0x273D), (0x2776, 0x277F), (0xE000, 0xF8FF), (0xFFFD, 0xFFFD),
   (0xF0000, 0xFFFFD), (0x100000, 0x10FFFD)]

/-- `g_color_emoji`, `s_combining_mark_width`, `s_win10` and `s_win11` (terminal/src/wcwidth.cpp:74-80). -/
structure Cfg where
  color : Bool
  mark : Int
  win10 : Bool
  win11 : Bool
deriving Repr, DecidableEq

/-- `1 + !is_cjk_halfwidth(ucs)` (terminal/src/wcwidth.cpp:115-122, 243). -/
def cjk (c : Nat) : Option Int := (bisearch halfwidth c).map fun b => if b then 1 else 2

/-- `mk_wcwidth` after the emoji (terminal/src/wcwidth.cpp:231-254). -/
def afterEmoji (cfg : Cfg) (c : Nat) : Option Int := do
  if ← bisearch combining c then return cfg.mark
  if c < 0x1100 then return 1
  if c ≤ 0x115f then return 2
  if c = 0x2329 ∨ c = 0x232a then return 2
  if c ≥ 0x2e80 ∧ c ≤ 0xa4cf then cjk c
  else if c ≥ 0xac00 ∧ c ≤ 0xd7a3 then cjk c
  else if (c ≥ 0xf900 ∧ c ≤ 0xfaff) ∨ (c ≥ 0xfe10 ∧ c ≤ 0xfe19) ∨ (c ≥ 0xfe30 ∧ c ≤ 0xfe6f) ∨ (c ≥ 0xff00 ∧ c ≤ 0xff60) ∨
      (c ≥ 0xffe0 ∧ c ≤ 0xffe6) ∨ (c ≥ 0x20000 ∧ c ≤ 0x2fffd) ∨ (c ≥ 0x30000 ∧ c ≤ 0x3fffd) then return 2
  else return 1

/-- `mk_wcwidth` (terminal/src/wcwidth.cpp:209-255). -/
def mkWidth (cfg : Cfg) (c : Nat) : Option Int :=
  if c = 0 then some 0
  else if c < 32 then some (-1)
  else if c ≤ 0x7e then some 1
  else if c < 0xa0 then some (-1)
  else if cfg.color then do
    if ← bisearch unqualified c then return 1
    if ← bisearch emojis c then return 2
    afterEmoji cfg c
  else afterEmoji cfg c

/-- What `mk_wcwidth_ucs2` does for characters that are not narrow (terminal/src/wcwidth.cpp:312-334). -/
def ucs2End (cfg : Cfg) (c : Nat) : Option Int :=
  let last : Int := if c ≥ 0x10000 then 2 else 1
  if cfg.win10 then
    if c ≤ 0x115f then some 2
    else if c = 0x2329 ∨ c = 0x232a then some 2
    else do
      if ← (if cfg.win11 then bisearch ucs2Emoji c else some false) then return 2
      if c ≥ 0x2e80 ∧ c ≤ 0xa4cf then cjk c
      else if c ≥ 0xac00 ∧ c ≤ 0xd7a3 then cjk c
      else if (c ≥ 0xf900 ∧ c ≤ 0xfaff) ∨ (c ≥ 0xfe10 ∧ c ≤ 0xfe19) ∨ (c ≥ 0xfe30 ∧ c ≤ 0xfe6f) then return 2
      else if (c ≥ 0xff00 ∧ c ≤ 0xff60) ∨ (c ≥ 0xffe0 ∧ c ≤ 0xffe6) then return 2
      else return last
  else some last

/-- `mk_wcwidth_ucs2` (terminal/src/wcwidth.cpp:257-335). -/
def mkWidthUcs2 (cfg : Cfg) (c : Nat) : Option Int :=
  if c = 0 then some 0
  else if c < 32 then some (-1)
  else if c ≤ 0x7e then some 1
  else if c < 0xa0 then some (-1)
  else do
    if ← bisearch combining c then return cfg.mark
    if c < 0x1100 then return 1
    ucs2End cfg c

/-- `s_resolve` (terminal/src/wcwidth.cpp:542, 568). -/
inductive Mode
  | font | one | two | auto
deriving Repr, DecidableEq

/-- What is outside: whether the terminal is a Windows console (terminal/src/wcwidth.cpp:656-659), what
`get_wcwidth_from_font` gives (terminal/src/wcwidth.cpp:574-626), the code page, and `s_only_ucs2`. -/
structure Host where
  console : Bool
  font : Nat → Int
  codePage : Nat
  onlyUcs2 : Bool

/-- `resolve_ambiguous_wcwidth` (terminal/src/wcwidth.cpp:628-664), without the map. -/
def resolve (h : Host) (m : Mode) (c : Nat) : Int :=
  let font := if h.font c < 0 then 2 else h.font c
  match m with
  | .font => font
  | .one => 1
  | .two => 2
  | .auto => if h.console then font else 1

/-- `mk_wcwidth_cjk` and `mk_wcwidth_cjk_ucs2` (terminal/src/wcwidth.cpp:422-438), with the function that is called at the end. -/
def mkWidthCjk (h : Host) (m : Mode) (other : Nat → Option Int) (c : Nat) : Option Int := do
  if ← bisearch ambiguous c then return resolve h m c
  other c

/-- `is_CJK_codepage` (terminal/src/wcwidth.cpp:752-755). -/
def isCjk (cp : Nat) : Bool := cp = 932 ∨ cp = 936 ∨ cp = 949 ∨ cp = 950

/-- The function that `wcwidth` points to (terminal/src/wcwidth.cpp:783-801). -/
def wcwidth (cfg : Cfg) (h : Host) (m : Mode) (c : Nat) : Option Int :=
  let useCjk := if m = .auto then isCjk h.codePage else true
  let base := if h.onlyUcs2 then mkWidthUcs2 cfg else mkWidth cfg
  if useCjk then mkWidthCjk h m base c else base c

/-- `is_variant_selector` (terminal/src/wcwidth.cpp:511-516). -/
def isVariant (c : Nat) : Bool := c = 0xfe0f ∨ (c ≥ 0x1f3fb ∧ c ≤ 0x1f3ff)

/-- The tables that the iterator over characters uses (`wcwidth`, terminal/src/wcwidth.cpp:461, `is_emoji` and
`is_possible_unqualified_half_width`, terminal/src/wcwidth.cpp:524-537). -/
def tables (cfg : Cfg) (h : Host) (m : Mode) : Ellipsify.Env where
  wc c := (wcwidth cfg h m c).getD 0
  emoji c := (bisearch emojis c).getD false
  unq c := (bisearch unqualified c).getD false
  variant := isVariant
  color := cfg.color

end Clink.WcWidth

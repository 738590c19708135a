/- The table `fuzzy_accent_map`, clink/core/src/str_compare.cpp:65-368 (accent, normal),
transcribed mechanically. -/
namespace Clink.StrCompare

/-- `fuzzy_accent_map[]`, core/src/str_compare.cpp:65-368. -/
def accentTable : Array (Nat × Nat) := #[
  (0x00C0, 65), (0x00C1, 65), (0x00C2, 65), (0x00C3, 65), (0x00C4, 65), (0x00C5, 65), (0x00C7, 67), (0x00C8, 69), (0x00C9, 69), (0x00CA, 69),
  (0x00CB, 69), (0x00CC, 73), (0x00CD, 73), (0x00CE, 73), (0x00CF, 73), (0x00D0, 68), (0x00D1, 78), (0x00D2, 79), (0x00D3, 79), (0x00D4, 79),
  (0x00D5, 79), (0x00D6, 79), (0x00D8, 79), (0x00D9, 85), (0x00DA, 85), (0x00DB, 85), (0x00DC, 85), (0x00DD, 89), (0x00DF, 115), (0x00E0, 97),
  (0x00E1, 97), (0x00E2, 97), (0x00E3, 97), (0x00E4, 97), (0x00E5, 97), (0x00E7, 99), (0x00E8, 101), (0x00E9, 101), (0x00EA, 101), (0x00EB, 101),
  (0x00EC, 105), (0x00ED, 105), (0x00EE, 105), (0x00EF, 105), (0x00F0, 100), (0x00F1, 110), (0x00F2, 111), (0x00F3, 111), (0x00F4, 111), (0x00F5, 111),
  (0x00F6, 111), (0x00F8, 111), (0x00F9, 117), (0x00FA, 117), (0x00FB, 117), (0x00FC, 117), (0x00FD, 121), (0x00FF, 121), (0x0100, 65), (0x0101, 97),
  (0x0102, 65), (0x0103, 97), (0x0104, 65), (0x0105, 97), (0x0106, 67), (0x0107, 99), (0x0108, 67), (0x0109, 99), (0x010A, 67), (0x010B, 99),
  (0x010C, 67), (0x010D, 99), (0x010E, 68), (0x010F, 100), (0x0110, 68), (0x0111, 100), (0x0112, 69), (0x0113, 101), (0x0114, 69), (0x0115, 101),
  (0x0116, 69), (0x0117, 101), (0x0118, 69), (0x0119, 101), (0x011A, 69), (0x011B, 101), (0x011C, 71), (0x011D, 103), (0x011E, 71), (0x011F, 103),
  (0x0120, 71), (0x0121, 103), (0x0122, 71), (0x0123, 103), (0x0124, 72), (0x0125, 104), (0x0126, 72), (0x0127, 104), (0x0128, 73), (0x0129, 105),
  (0x012A, 73), (0x012B, 105), (0x012C, 73), (0x012D, 105), (0x012E, 73), (0x012F, 105), (0x0130, 73), (0x0131, 105), (0x0134, 74), (0x0135, 106),
  (0x0136, 75), (0x0137, 107), (0x0138, 107), (0x0139, 76), (0x013A, 108), (0x013B, 76), (0x013C, 108), (0x013D, 76), (0x013E, 108), (0x013F, 76),
  (0x0140, 108), (0x0141, 76), (0x0142, 108), (0x0143, 78), (0x0144, 110), (0x0145, 78), (0x0146, 110), (0x0147, 78), (0x0148, 110), (0x0149, 110),
  (0x014A, 78), (0x014B, 110), (0x014C, 79), (0x014D, 111), (0x014E, 79), (0x014F, 111), (0x0150, 79), (0x0151, 111), (0x0154, 82), (0x0155, 114),
  (0x0156, 82), (0x0157, 114), (0x0158, 82), (0x0159, 114), (0x015A, 83), (0x015B, 115), (0x015C, 83), (0x015D, 115), (0x015E, 83), (0x015F, 115),
  (0x0160, 83), (0x0161, 115), (0x0162, 84), (0x0163, 116), (0x0164, 84), (0x0165, 116), (0x0166, 84), (0x0167, 116), (0x0168, 85), (0x0169, 117),
  (0x016A, 85), (0x016B, 117), (0x016C, 85), (0x016D, 117), (0x016E, 85), (0x016F, 117), (0x0170, 85), (0x0171, 117), (0x0172, 85), (0x0173, 117),
  (0x0174, 87), (0x0175, 119), (0x0176, 89), (0x0177, 121), (0x0178, 89), (0x0179, 90), (0x017A, 122), (0x017B, 90), (0x017C, 122), (0x017D, 90),
  (0x017E, 122), (0x017F, 115), (0x01A0, 79), (0x01A1, 111), (0x01AF, 85), (0x01B0, 117), (0x01CD, 65), (0x01CE, 97), (0x01CF, 73), (0x01D0, 105),
  (0x01D1, 79), (0x01D2, 111), (0x01D3, 85), (0x01D4, 117), (0x01D5, 85), (0x01D6, 117), (0x01D7, 85), (0x01D8, 117), (0x01D9, 85), (0x01DA, 117),
  (0x01DB, 85), (0x01DC, 117), (0x0218, 83), (0x0219, 115), (0x021A, 84), (0x021B, 116), (0x0251, 97), (0x1EA0, 65), (0x1EA1, 97), (0x1EA2, 65),
  (0x1EA3, 97), (0x1EA4, 65), (0x1EA5, 97), (0x1EA6, 65), (0x1EA7, 97), (0x1EA8, 65), (0x1EA9, 97), (0x1EAA, 65), (0x1EAB, 97), (0x1EAC, 65),
  (0x1EAD, 97), (0x1EAE, 65), (0x1EAF, 97), (0x1EB0, 65), (0x1EB1, 97), (0x1EB2, 65), (0x1EB3, 97), (0x1EB4, 65), (0x1EB5, 97), (0x1EB6, 65),
  (0x1EB7, 97), (0x1EB8, 69), (0x1EB9, 101), (0x1EBA, 69), (0x1EBB, 101), (0x1EBC, 69), (0x1EBD, 101), (0x1EBE, 69), (0x1EBF, 101), (0x1EC0, 69),
  (0x1EC1, 101), (0x1EC2, 69), (0x1EC3, 101), (0x1EC4, 69), (0x1EC5, 101), (0x1EC6, 69), (0x1EC7, 101), (0x1EC8, 73), (0x1EC9, 105), (0x1ECA, 73),
  (0x1ECB, 105), (0x1ECC, 79), (0x1ECD, 111), (0x1ECE, 79), (0x1ECF, 111), (0x1ED0, 79), (0x1ED1, 111), (0x1ED2, 79), (0x1ED3, 111), (0x1ED4, 79),
  (0x1ED5, 111), (0x1ED6, 79), (0x1ED7, 111), (0x1ED8, 79), (0x1ED9, 111), (0x1EDA, 79), (0x1EDB, 111), (0x1EDC, 79), (0x1EDD, 111), (0x1EDE, 79),
  (0x1EDF, 111), (0x1EE0, 79), (0x1EE1, 111), (0x1EE2, 79), (0x1EE3, 111), (0x1EE4, 85), (0x1EE5, 117), (0x1EE6, 85), (0x1EE7, 117), (0x1EE8, 85),
  (0x1EE9, 117), (0x1EEA, 85), (0x1EEB, 117), (0x1EEC, 85), (0x1EED, 117), (0x1EEE, 85), (0x1EEF, 117), (0x1EF0, 85), (0x1EF1, 117), (0x1EF2, 89),
  (0x1EF3, 121), (0x1EF4, 89), (0x1EF5, 121), (0x1EF6, 89), (0x1EF7, 121), (0x1EF8, 89), (0x1EF9, 121)]

end Clink.StrCompare

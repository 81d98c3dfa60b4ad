/-
The character classification tables of the C locale, copied from the source.
-/
namespace Mlibc.Ctype

/-- `cLocaleCtypeClass`. The 768 bytes read as 384 little-endian 16-bit units (`asUint16Span`). options/internal/generic/c-locale-defaults.cpp L5-L70 -/
def cClassBits : List Nat := [
  0, 0, 0, 0, 0, 0, 0, 0, 0, 0, 0, 0, 0, 0, 0, 0,
  0, 0, 0, 0, 0, 0, 0, 0, 0, 0, 0, 0, 0, 0, 0, 0,
  0, 0, 0, 0, 0, 0, 0, 0, 0, 0, 0, 0, 0, 0, 0, 0,
  0, 0, 0, 0, 0, 0, 0, 0, 0, 0, 0, 0, 0, 0, 0, 0,
  0, 0, 0, 0, 0, 0, 0, 0, 0, 0, 0, 0, 0, 0, 0, 0,
  0, 0, 0, 0, 0, 0, 0, 0, 0, 0, 0, 0, 0, 0, 0, 0,
  0, 0, 0, 0, 0, 0, 0, 0, 0, 0, 0, 0, 0, 0, 0, 0,
  0, 0, 0, 0, 0, 0, 0, 0, 0, 0, 0, 0, 0, 0, 0, 0,
  2, 2, 2, 2, 2, 2, 2, 2, 2, 8195, 8194, 8194, 8194, 8194, 2, 2,
  2, 2, 2, 2, 2, 2, 2, 2, 2, 2, 2, 2, 2, 2, 2, 2,
  24577, 49156, 49156, 49156, 49156, 49156, 49156, 49156, 49156, 49156, 49156, 49156, 49156, 49156, 49156, 49156,
  55304, 55304, 55304, 55304, 55304, 55304, 55304, 55304, 55304, 55304, 49156, 49156, 49156, 49156, 49156, 49156,
  49156, 54536, 54536, 54536, 54536, 54536, 54536, 50440, 50440, 50440, 50440, 50440, 50440, 50440, 50440, 50440,
  50440, 50440, 50440, 50440, 50440, 50440, 50440, 50440, 50440, 50440, 50440, 49156, 49156, 49156, 49156, 49156,
  49156, 54792, 54792, 54792, 54792, 54792, 54792, 50696, 50696, 50696, 50696, 50696, 50696, 50696, 50696, 50696,
  50696, 50696, 50696, 50696, 50696, 50696, 50696, 50696, 50696, 50696, 50696, 49156, 49156, 49156, 49156, 2,
  0, 0, 0, 0, 0, 0, 0, 0, 0, 0, 0, 0, 0, 0, 0, 0,
  0, 0, 0, 0, 0, 0, 0, 0, 0, 0, 0, 0, 0, 0, 0, 0,
  0, 0, 0, 0, 0, 0, 0, 0, 0, 0, 0, 0, 0, 0, 0, 0,
  0, 0, 0, 0, 0, 0, 0, 0, 0, 0, 0, 0, 0, 0, 0, 0,
  0, 0, 0, 0, 0, 0, 0, 0, 0, 0, 0, 0, 0, 0, 0, 0,
  0, 0, 0, 0, 0, 0, 0, 0, 0, 0, 0, 0, 0, 0, 0, 0,
  0, 0, 0, 0, 0, 0, 0, 0, 0, 0, 0, 0, 0, 0, 0, 0,
  0, 0, 0, 0, 0, 0, 0, 0, 0, 0, 0, 0, 0, 0, 0, 0]

/-- `cLocaleCtypeToUpper`. options/internal/generic/c-locale-defaults.cpp L161-L210 -/
def cToUpper : List Nat := [
  128, 129, 130, 131, 132, 133, 134, 135, 136, 137, 138, 139, 140, 141, 142, 143,
  144, 145, 146, 147, 148, 149, 150, 151, 152, 153, 154, 155, 156, 157, 158, 159,
  160, 161, 162, 163, 164, 165, 166, 167, 168, 169, 170, 171, 172, 173, 174, 175,
  176, 177, 178, 179, 180, 181, 182, 183, 184, 185, 186, 187, 188, 189, 190, 191,
  192, 193, 194, 195, 196, 197, 198, 199, 200, 201, 202, 203, 204, 205, 206, 207,
  208, 209, 210, 211, 212, 213, 214, 215, 216, 217, 218, 219, 220, 221, 222, 223,
  224, 225, 226, 227, 228, 229, 230, 231, 232, 233, 234, 235, 236, 237, 238, 239,
  240, 241, 242, 243, 244, 245, 246, 247, 248, 249, 250, 251, 252, 253, 254, 4294967295,
  0, 1, 2, 3, 4, 5, 6, 7, 8, 9, 10, 11, 12, 13, 14, 15,
  16, 17, 18, 19, 20, 21, 22, 23, 24, 25, 26, 27, 28, 29, 30, 31,
  32, 33, 34, 35, 36, 37, 38, 39, 40, 41, 42, 43, 44, 45, 46, 47,
  48, 49, 50, 51, 52, 53, 54, 55, 56, 57, 58, 59, 60, 61, 62, 63,
  64, 65, 66, 67, 68, 69, 70, 71, 72, 73, 74, 75, 76, 77, 78, 79,
  80, 81, 82, 83, 84, 85, 86, 87, 88, 89, 90, 91, 92, 93, 94, 95,
  96, 65, 66, 67, 68, 69, 70, 71, 72, 73, 74, 75, 76, 77, 78, 79,
  80, 81, 82, 83, 84, 85, 86, 87, 88, 89, 90, 123, 124, 125, 126, 127,
  128, 129, 130, 131, 132, 133, 134, 135, 136, 137, 138, 139, 140, 141, 142, 143,
  144, 145, 146, 147, 148, 149, 150, 151, 152, 153, 154, 155, 156, 157, 158, 159,
  160, 161, 162, 163, 164, 165, 166, 167, 168, 169, 170, 171, 172, 173, 174, 175,
  176, 177, 178, 179, 180, 181, 182, 183, 184, 185, 186, 187, 188, 189, 190, 191,
  192, 193, 194, 195, 196, 197, 198, 199, 200, 201, 202, 203, 204, 205, 206, 207,
  208, 209, 210, 211, 212, 213, 214, 215, 216, 217, 218, 219, 220, 221, 222, 223,
  224, 225, 226, 227, 228, 229, 230, 231, 232, 233, 234, 235, 236, 237, 238, 239,
  240, 241, 242, 243, 244, 245, 246, 247, 248, 249, 250, 251, 252, 253, 254, 255]

/-- `cLocaleCtypeToLower`. options/internal/generic/c-locale-defaults.cpp L212-L261 -/
def cToLower : List Nat := [
  128, 129, 130, 131, 132, 133, 134, 135, 136, 137, 138, 139, 140, 141, 142, 143,
  144, 145, 146, 147, 148, 149, 150, 151, 152, 153, 154, 155, 156, 157, 158, 159,
  160, 161, 162, 163, 164, 165, 166, 167, 168, 169, 170, 171, 172, 173, 174, 175,
  176, 177, 178, 179, 180, 181, 182, 183, 184, 185, 186, 187, 188, 189, 190, 191,
  192, 193, 194, 195, 196, 197, 198, 199, 200, 201, 202, 203, 204, 205, 206, 207,
  208, 209, 210, 211, 212, 213, 214, 215, 216, 217, 218, 219, 220, 221, 222, 223,
  224, 225, 226, 227, 228, 229, 230, 231, 232, 233, 234, 235, 236, 237, 238, 239,
  240, 241, 242, 243, 244, 245, 246, 247, 248, 249, 250, 251, 252, 253, 254, 4294967295,
  0, 1, 2, 3, 4, 5, 6, 7, 8, 9, 10, 11, 12, 13, 14, 15,
  16, 17, 18, 19, 20, 21, 22, 23, 24, 25, 26, 27, 28, 29, 30, 31,
  32, 33, 34, 35, 36, 37, 38, 39, 40, 41, 42, 43, 44, 45, 46, 47,
  48, 49, 50, 51, 52, 53, 54, 55, 56, 57, 58, 59, 60, 61, 62, 63,
  64, 97, 98, 99, 100, 101, 102, 103, 104, 105, 106, 107, 108, 109, 110, 111,
  112, 113, 114, 115, 116, 117, 118, 119, 120, 121, 122, 91, 92, 93, 94, 95,
  96, 97, 98, 99, 100, 101, 102, 103, 104, 105, 106, 107, 108, 109, 110, 111,
  112, 113, 114, 115, 116, 117, 118, 119, 120, 121, 122, 123, 124, 125, 126, 127,
  128, 129, 130, 131, 132, 133, 134, 135, 136, 137, 138, 139, 140, 141, 142, 143,
  144, 145, 146, 147, 148, 149, 150, 151, 152, 153, 154, 155, 156, 157, 158, 159,
  160, 161, 162, 163, 164, 165, 166, 167, 168, 169, 170, 171, 172, 173, 174, 175,
  176, 177, 178, 179, 180, 181, 182, 183, 184, 185, 186, 187, 188, 189, 190, 191,
  192, 193, 194, 195, 196, 197, 198, 199, 200, 201, 202, 203, 204, 205, 206, 207,
  208, 209, 210, 211, 212, 213, 214, 215, 216, 217, 218, 219, 220, 221, 222, 223,
  224, 225, 226, 227, 228, 229, 230, 231, 232, 233, 234, 235, 236, 237, 238, 239,
  240, 241, 242, 243, 244, 245, 246, 247, 248, 249, 250, 251, 252, 253, 254, 255]

/-- `cLocaleClassUpper`. options/internal/generic/c-locale-defaults.cpp L263-L268 -/
def cUpper : List Nat := [
  7, 1, 6, 1, 1, 24, 0, 32, 134217726, 0]

/-- `cLocaleClassLower`. options/internal/generic/c-locale-defaults.cpp L270-L275 -/
def cLower : List Nat := [
  7, 1, 6, 1, 1, 24, 0, 32, 0, 134217726]

/-- `cLocaleClassAlpha`. options/internal/generic/c-locale-defaults.cpp L277-L282 -/
def cAlpha : List Nat := [
  7, 1, 6, 1, 1, 24, 0, 32, 134217726, 134217726]

/-- `cLocaleClassDigit`. options/internal/generic/c-locale-defaults.cpp L284-L289 -/
def cDigit : List Nat := [
  6, 1, 6, 0, 1, 24, 28, 0, 67043328]

/-- `cLocaleClassXdigit`. options/internal/generic/c-locale-defaults.cpp L291-L296 -/
def cXdigit : List Nat := [
  7, 1, 7, 0, 3, 24, 28, 0, 67043328, 126, 126]

/-- `cLocaleClassSpace`. options/internal/generic/c-locale-defaults.cpp L298-L303 -/
def cSpace : List Nat := [
  6, 1, 6, 0, 1, 24, 28, 15872, 1]

/-- `cLocaleClassPrint`. options/internal/generic/c-locale-defaults.cpp L305-L310 -/
def cPrint : List Nat := [
  7, 1, 7, 0, 3, 24, 28, 0, 4294967295, 4294967295, 2147483647]

/-- `cLocaleClassGraph`. options/internal/generic/c-locale-defaults.cpp L312-L317 -/
def cGraph : List Nat := [
  7, 1, 7, 0, 3, 24, 28, 0, 4294967294, 4294967295, 2147483647]

/-- `cLocaleClassBlank`. options/internal/generic/c-locale-defaults.cpp L319-L324 -/
def cBlank : List Nat := [
  6, 1, 6, 0, 1, 24, 28, 512, 1]

/-- `cLocaleClassCntrl`. options/internal/generic/c-locale-defaults.cpp L326-L331 -/
def cCntrl : List Nat := [
  7, 1, 7, 0, 3, 24, 28, 4294967295, 0, 0, 2147483648]

/-- `cLocaleClassPunct`. options/internal/generic/c-locale-defaults.cpp L333-L338 -/
def cPunct : List Nat := [
  7, 1, 7, 0, 3, 24, 28, 0, 4227923966, 4160749569, 2013265921]

/-- `cLocaleClassAlnum`. options/internal/generic/c-locale-defaults.cpp L340-L345 -/
def cAlnum : List Nat := [
  7, 1, 7, 0, 3, 24, 28, 0, 67043328, 134217726, 134217726]

/-- `cLocaleMapToUpper`. options/internal/generic/c-locale-defaults.cpp L347-L359 -/
def cMapUpper : List Nat := [
  7, 1, 5, 3, 31, 24, 0, 0, 0, 40, 0, 4294967264, 4294967264, 4294967264, 4294967264, 4294967264,
  4294967264, 4294967264, 4294967264, 4294967264, 4294967264, 4294967264, 4294967264, 4294967264, 4294967264, 4294967264, 4294967264, 4294967264, 4294967264, 4294967264, 4294967264, 4294967264,
  4294967264, 4294967264, 4294967264, 4294967264, 4294967264, 0, 0, 0, 0, 0]

/-- `cLocaleMapToLower`. options/internal/generic/c-locale-defaults.cpp L361-L373 -/
def cMapLower : List Nat := [
  7, 1, 5, 3, 31, 24, 0, 0, 40, 0, 0, 32, 32, 32, 32, 32,
  32, 32, 32, 32, 32, 32, 32, 32, 32, 32, 32, 32, 32, 32, 32, 32,
  32, 32, 32, 32, 32, 0, 0, 0, 0, 0]

end Mlibc.Ctype

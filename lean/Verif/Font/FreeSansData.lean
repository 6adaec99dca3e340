import Verif.Font.Spec
/-!
# The shipped font, `graphics/GFXFonts/FreeSans15pt7b.h`

The tables are copied from the header by `tools/gen_freesans.py`.
-/
namespace Verif.Font

/-- FreeSans15pt7b.h:1-241 `FreeSans15pt7bBitmaps`. -/
def freeSansBytes : List Nat := [
  0, 255, 255, 255, 255, 255, 210, 3, 254, 231, 231, 231, 231, 231, 66, 66, 3, 12, 3, 12, 3, 28, 7, 24,
  6, 24, 63, 255, 63, 255, 6, 56, 14, 48, 12, 48, 12, 48, 12, 48, 255, 254, 255, 254, 24, 96, 24, 96,
  24, 96, 24, 96, 24, 224, 56, 192, 2, 0, 31, 128, 255, 195, 211, 199, 35, 156, 67, 184, 135, 113, 0, 226,
  1, 228, 1, 232, 1, 252, 0, 255, 0, 95, 128, 135, 129, 7, 226, 15, 196, 31, 136, 115, 147, 227, 255, 131,
  248, 0, 128, 1, 0, 0, 0, 192, 30, 0, 192, 127, 129, 128, 97, 129, 128, 192, 195, 0, 192, 195, 0, 192,
  198, 0, 192, 198, 0, 97, 140, 0, 127, 140, 0, 30, 24, 0, 0, 48, 120, 0, 49, 254, 0, 97, 134, 0,
  99, 3, 0, 195, 3, 0, 195, 3, 1, 131, 3, 1, 129, 134, 3, 1, 254, 3, 0, 120, 3, 128, 15, 224,
  14, 224, 28, 112, 28, 112, 28, 112, 12, 240, 14, 224, 7, 192, 3, 0, 15, 128, 61, 206, 112, 206, 240, 236,
  224, 124, 224, 120, 224, 56, 240, 124, 120, 254, 63, 230, 31, 135, 255, 254, 144, 6, 24, 48, 193, 134, 12, 56,
  112, 195, 135, 14, 28, 56, 112, 225, 193, 131, 135, 6, 14, 12, 24, 24, 24, 192, 193, 129, 131, 3, 6, 14,
  28, 24, 56, 112, 225, 195, 135, 14, 28, 48, 225, 195, 14, 24, 32, 195, 0, 8, 4, 18, 95, 241, 192, 160,
  216, 68, 3, 0, 12, 0, 48, 0, 192, 3, 0, 12, 15, 255, 255, 255, 3, 0, 12, 0, 48, 0, 192, 3,
  0, 12, 0, 255, 146, 240, 255, 252, 255, 128, 3, 3, 2, 6, 6, 4, 12, 12, 8, 8, 24, 16, 16, 48,
  48, 32, 96, 96, 64, 192, 192, 15, 192, 127, 131, 135, 28, 14, 112, 57, 192, 238, 1, 248, 7, 224, 31, 128,
  126, 1, 248, 7, 224, 31, 128, 126, 1, 220, 14, 112, 57, 192, 227, 135, 7, 248, 15, 192, 2, 12, 24, 255,
  255, 195, 135, 14, 28, 56, 112, 225, 195, 135, 14, 28, 56, 112, 224, 15, 192, 255, 199, 135, 156, 15, 224, 31,
  128, 126, 1, 192, 7, 0, 60, 0, 224, 15, 0, 120, 7, 192, 60, 1, 192, 14, 0, 48, 1, 128, 6, 0,
  31, 255, 127, 252, 31, 192, 255, 135, 15, 60, 30, 224, 59, 128, 224, 3, 128, 14, 0, 240, 31, 128, 126, 0,
  30, 0, 60, 0, 112, 1, 248, 7, 224, 29, 192, 231, 135, 143, 252, 31, 192, 0, 224, 7, 0, 120, 7, 192,
  62, 3, 112, 27, 129, 156, 24, 224, 199, 12, 56, 193, 198, 14, 96, 115, 255, 255, 255, 0, 224, 7, 0, 56,
  1, 192, 14, 0, 63, 248, 255, 227, 0, 12, 0, 48, 0, 192, 6, 0, 25, 240, 127, 241, 225, 231, 3, 128,
  7, 0, 28, 0, 112, 1, 192, 7, 224, 31, 192, 231, 135, 15, 248, 15, 192, 7, 192, 127, 195, 135, 140, 14,
  112, 57, 128, 14, 0, 56, 0, 231, 195, 255, 207, 135, 188, 14, 224, 31, 128, 126, 1, 248, 7, 96, 29, 192,
  227, 135, 135, 252, 15, 192, 255, 255, 255, 240, 1, 128, 14, 0, 48, 1, 192, 6, 0, 48, 1, 192, 6, 0,
  56, 0, 224, 3, 0, 28, 0, 112, 3, 128, 14, 0, 56, 0, 192, 7, 0, 28, 0, 7, 128, 127, 131, 135,
  28, 14, 112, 57, 192, 231, 3, 156, 14, 56, 112, 127, 129, 254, 14, 28, 112, 59, 128, 126, 1, 248, 7, 224,
  29, 192, 231, 135, 143, 252, 15, 192, 15, 192, 255, 135, 135, 28, 14, 224, 27, 128, 126, 1, 248, 7, 224, 29,
  192, 247, 135, 207, 255, 15, 156, 0, 112, 1, 192, 6, 96, 57, 192, 199, 135, 15, 248, 15, 128, 255, 128, 0,
  0, 15, 248, 238, 224, 0, 0, 0, 0, 119, 113, 19, 96, 0, 4, 0, 112, 7, 192, 252, 15, 129, 248, 15,
  0, 60, 0, 126, 0, 62, 0, 63, 0, 31, 0, 28, 0, 16, 255, 255, 255, 240, 0, 0, 0, 0, 3, 255,
  255, 255, 192, 192, 1, 224, 1, 240, 0, 252, 0, 62, 0, 31, 128, 7, 128, 15, 0, 248, 7, 192, 126, 3,
  224, 15, 0, 24, 0, 0, 15, 193, 255, 28, 29, 224, 126, 3, 240, 28, 0, 224, 15, 0, 112, 7, 0, 112,
  7, 0, 112, 3, 128, 28, 0, 0, 0, 0, 0, 1, 192, 14, 0, 112, 0, 0, 31, 224, 0, 31, 255, 0,
  15, 129, 248, 3, 192, 7, 128, 224, 0, 120, 56, 0, 7, 142, 3, 192, 113, 193, 253, 207, 112, 120, 240, 238,
  30, 14, 31, 131, 129, 195, 240, 224, 48, 126, 28, 6, 15, 195, 129, 195, 248, 112, 48, 119, 14, 14, 30, 240,
  227, 199, 142, 31, 223, 225, 224, 241, 240, 30, 0, 0, 1, 224, 0, 0, 30, 0, 0, 1, 240, 24, 0, 15,
  255, 128, 0, 63, 192, 0, 0, 240, 0, 62, 0, 7, 192, 0, 220, 0, 59, 128, 7, 48, 0, 199, 0, 56,
  224, 7, 12, 0, 193, 192, 56, 56, 6, 3, 129, 255, 240, 63, 254, 6, 0, 225, 192, 28, 56, 3, 134, 0,
  57, 192, 7, 56, 0, 230, 0, 14, 255, 240, 255, 248, 224, 60, 224, 30, 224, 14, 224, 14, 224, 14, 224, 28,
  224, 60, 255, 240, 255, 248, 224, 30, 224, 14, 224, 7, 224, 7, 224, 7, 224, 7, 224, 15, 224, 30, 255, 252,
  255, 248, 1, 252, 1, 255, 224, 120, 30, 30, 0, 227, 128, 30, 224, 1, 220, 0, 7, 0, 0, 224, 0, 28,
  0, 3, 128, 0, 112, 0, 14, 0, 1, 192, 1, 220, 0, 59, 128, 14, 120, 1, 199, 128, 120, 124, 30, 7,
  255, 128, 31, 192, 255, 224, 127, 252, 56, 15, 156, 1, 206, 0, 119, 0, 59, 128, 31, 192, 7, 224, 3, 240,
  1, 248, 0, 252, 0, 126, 0, 63, 0, 31, 128, 31, 192, 14, 224, 7, 112, 7, 56, 15, 31, 255, 15, 255,
  0, 255, 253, 255, 251, 128, 7, 0, 14, 0, 28, 0, 56, 0, 112, 0, 224, 1, 255, 251, 255, 247, 0, 14,
  0, 28, 0, 56, 0, 112, 0, 224, 1, 192, 3, 128, 7, 255, 255, 255, 224, 255, 255, 255, 254, 0, 56, 0,
  224, 3, 128, 14, 0, 56, 0, 224, 3, 255, 207, 255, 56, 0, 224, 3, 128, 14, 0, 56, 0, 224, 3, 128,
  14, 0, 56, 0, 224, 0, 1, 254, 0, 127, 248, 31, 3, 195, 192, 30, 56, 0, 247, 0, 7, 112, 0, 14,
  0, 0, 224, 0, 14, 0, 0, 224, 15, 254, 0, 255, 224, 0, 126, 0, 7, 112, 0, 119, 0, 15, 56, 0,
  243, 192, 31, 31, 7, 240, 127, 227, 1, 248, 16, 224, 3, 240, 1, 248, 0, 252, 0, 126, 0, 63, 0, 31,
  128, 15, 192, 7, 224, 3, 255, 255, 255, 255, 252, 0, 126, 0, 63, 0, 31, 128, 15, 192, 7, 224, 3, 240,
  1, 248, 0, 252, 0, 126, 0, 56, 255, 255, 255, 255, 255, 255, 255, 254, 0, 112, 7, 0, 112, 7, 0, 112,
  7, 0, 112, 7, 0, 112, 7, 0, 112, 7, 0, 112, 7, 224, 126, 7, 224, 126, 15, 112, 231, 252, 31, 128,
  224, 7, 240, 7, 184, 7, 156, 7, 142, 7, 135, 7, 3, 135, 1, 199, 0, 231, 0, 119, 192, 63, 112, 31,
  56, 15, 14, 7, 3, 131, 129, 225, 192, 112, 224, 28, 112, 15, 56, 3, 156, 0, 238, 0, 56, 224, 7, 0,
  56, 1, 192, 14, 0, 112, 3, 128, 28, 0, 224, 7, 0, 56, 1, 192, 14, 0, 112, 3, 128, 28, 0, 224,
  7, 0, 56, 1, 255, 255, 255, 128, 240, 0, 127, 192, 7, 254, 0, 63, 240, 1, 255, 192, 31, 246, 0, 223,
  176, 6, 253, 192, 119, 230, 3, 63, 56, 25, 249, 193, 207, 198, 12, 126, 56, 99, 241, 199, 31, 134, 48, 252,
  59, 135, 224, 220, 63, 6, 193, 248, 62, 15, 192, 224, 126, 7, 3, 128, 240, 3, 248, 1, 254, 0, 255, 128,
  127, 192, 63, 112, 31, 152, 15, 206, 7, 227, 131, 241, 193, 248, 112, 252, 24, 126, 14, 63, 3, 159, 128, 207,
  192, 119, 224, 31, 240, 15, 248, 3, 252, 0, 254, 0, 120, 1, 252, 0, 63, 248, 7, 193, 240, 120, 3, 195,
  128, 14, 56, 0, 57, 192, 1, 220, 0, 7, 224, 0, 63, 0, 1, 248, 0, 15, 192, 0, 126, 0, 3, 240,
  0, 29, 192, 1, 206, 0, 14, 56, 0, 225, 224, 15, 7, 193, 240, 15, 254, 0, 31, 192, 0, 255, 240, 255,
  252, 224, 30, 224, 15, 224, 7, 224, 7, 224, 7, 224, 7, 224, 15, 224, 30, 255, 252, 255, 248, 224, 0, 224,
  0, 224, 0, 224, 0, 224, 0, 224, 0, 224, 0, 224, 0, 224, 0, 1, 252, 0, 63, 248, 7, 193, 240, 120,
  3, 195, 128, 14, 56, 0, 57, 192, 1, 220, 0, 7, 224, 0, 63, 0, 1, 248, 0, 15, 192, 0, 126, 0,
  3, 240, 0, 29, 192, 1, 206, 0, 142, 56, 14, 225, 224, 63, 7, 193, 240, 15, 255, 192, 31, 199, 0, 0,
  24, 0, 0, 0, 255, 248, 127, 254, 56, 7, 156, 1, 238, 0, 119, 0, 59, 128, 29, 192, 14, 224, 14, 112,
  15, 63, 254, 31, 255, 142, 0, 231, 0, 59, 128, 29, 192, 14, 224, 7, 112, 3, 184, 1, 220, 0, 238, 0,
  120, 7, 240, 15, 254, 15, 7, 143, 1, 199, 0, 115, 128, 57, 192, 0, 240, 0, 62, 0, 15, 240, 1, 255,
  0, 31, 224, 0, 240, 0, 63, 128, 15, 192, 7, 240, 3, 184, 3, 143, 3, 195, 255, 192, 127, 0, 255, 255,
  255, 252, 14, 0, 28, 0, 56, 0, 112, 0, 224, 1, 192, 3, 128, 7, 0, 14, 0, 28, 0, 56, 0, 112,
  0, 224, 1, 192, 3, 128, 7, 0, 14, 0, 28, 0, 56, 0, 224, 3, 240, 1, 248, 0, 252, 0, 126, 0,
  63, 0, 31, 128, 15, 192, 7, 224, 3, 240, 1, 248, 0, 252, 0, 126, 0, 63, 0, 31, 128, 15, 192, 7,
  224, 3, 184, 3, 159, 7, 131, 255, 128, 127, 0, 112, 1, 220, 0, 119, 0, 24, 224, 14, 56, 3, 142, 0,
  193, 192, 112, 112, 28, 12, 6, 3, 131, 128, 224, 224, 24, 48, 7, 28, 1, 199, 0, 49, 128, 14, 224, 3,
  184, 0, 108, 0, 31, 0, 7, 128, 0, 224, 0, 112, 14, 0, 238, 1, 192, 57, 192, 124, 7, 56, 13, 128,
  227, 129, 176, 28, 112, 55, 7, 14, 12, 224, 225, 193, 140, 28, 24, 49, 131, 131, 134, 56, 96, 113, 135, 28,
  14, 48, 99, 128, 198, 14, 112, 29, 193, 204, 3, 176, 27, 128, 118, 3, 112, 6, 192, 126, 0, 240, 15, 128,
  30, 0, 240, 1, 192, 30, 0, 56, 3, 192, 120, 1, 199, 0, 112, 112, 30, 14, 3, 128, 224, 224, 14, 56,
  1, 199, 0, 29, 192, 1, 240, 0, 62, 0, 3, 128, 0, 248, 0, 59, 128, 7, 112, 1, 199, 0, 112, 112,
  14, 14, 3, 128, 224, 224, 14, 60, 1, 231, 0, 28, 240, 1, 238, 0, 57, 224, 14, 28, 1, 193, 192, 112,
  60, 30, 3, 131, 128, 56, 224, 7, 28, 0, 119, 0, 7, 192, 0, 248, 0, 14, 0, 1, 192, 0, 56, 0,
  7, 0, 0, 224, 0, 28, 0, 3, 128, 0, 112, 0, 14, 0, 127, 255, 127, 255, 0, 15, 0, 30, 0, 28,
  0, 56, 0, 120, 0, 240, 0, 224, 1, 192, 3, 192, 7, 128, 7, 0, 14, 0, 30, 0, 60, 0, 56, 0,
  112, 0, 240, 0, 255, 255, 255, 255, 255, 249, 206, 115, 156, 231, 57, 206, 115, 156, 231, 57, 206, 115, 156, 231,
  254, 192, 192, 64, 96, 96, 32, 48, 48, 16, 16, 24, 8, 8, 12, 12, 4, 6, 6, 2, 3, 3, 255, 206,
  115, 156, 231, 57, 206, 115, 156, 231, 57, 206, 115, 156, 231, 63, 254, 14, 1, 192, 60, 13, 129, 152, 115, 12,
  97, 134, 96, 204, 15, 129, 128, 255, 255, 192, 112, 193, 131, 15, 224, 127, 225, 225, 227, 129, 192, 3, 128, 7,
  1, 254, 31, 252, 124, 57, 192, 115, 128, 231, 3, 207, 15, 143, 247, 199, 199, 128, 224, 3, 128, 14, 0, 56,
  0, 224, 3, 128, 14, 124, 59, 252, 248, 123, 192, 239, 3, 248, 7, 224, 31, 128, 126, 1, 248, 7, 240, 63,
  192, 239, 135, 59, 252, 231, 192, 15, 193, 255, 30, 60, 224, 238, 3, 240, 3, 128, 28, 0, 224, 7, 0, 56,
  14, 224, 247, 135, 31, 240, 63, 0, 0, 28, 0, 112, 1, 192, 7, 0, 28, 0, 112, 249, 207, 255, 120, 125,
  192, 255, 3, 248, 7, 224, 31, 128, 126, 1, 248, 7, 240, 61, 192, 247, 135, 207, 251, 15, 204, 15, 192, 255,
  199, 135, 156, 14, 224, 31, 128, 127, 255, 255, 255, 224, 3, 128, 14, 1, 220, 14, 120, 120, 255, 192, 252, 0,
  59, 220, 231, 59, 255, 115, 156, 231, 57, 206, 115, 156, 231, 0, 15, 156, 255, 119, 135, 220, 15, 224, 63, 128,
  126, 1, 248, 7, 224, 31, 128, 126, 3, 220, 15, 120, 124, 255, 112, 249, 192, 7, 0, 31, 128, 239, 7, 159,
  252, 31, 192, 224, 14, 0, 224, 14, 0, 224, 14, 0, 231, 206, 254, 248, 255, 7, 224, 126, 7, 224, 126, 7,
  224, 126, 7, 224, 126, 7, 224, 126, 7, 224, 112, 255, 128, 63, 255, 255, 255, 255, 254, 28, 113, 192, 0, 1,
  199, 28, 113, 199, 28, 113, 199, 28, 113, 199, 28, 113, 199, 31, 255, 0, 224, 7, 0, 56, 1, 192, 14, 0,
  112, 3, 129, 220, 28, 225, 199, 28, 57, 193, 220, 15, 240, 125, 195, 206, 28, 56, 224, 231, 7, 56, 29, 192,
  126, 3, 128, 255, 255, 255, 255, 255, 255, 255, 254, 231, 199, 206, 254, 254, 248, 248, 255, 7, 135, 224, 112, 126,
  7, 7, 224, 112, 126, 7, 7, 224, 112, 126, 7, 7, 224, 112, 126, 7, 7, 224, 112, 126, 7, 7, 224, 112,
  112, 231, 206, 254, 248, 255, 7, 224, 126, 7, 224, 126, 7, 224, 126, 7, 224, 126, 7, 224, 126, 7, 224, 112,
  15, 192, 255, 199, 135, 156, 14, 240, 63, 128, 126, 1, 248, 7, 224, 31, 128, 127, 3, 220, 14, 120, 120, 255,
  192, 252, 0, 231, 195, 191, 207, 135, 188, 14, 240, 63, 128, 126, 1, 248, 7, 224, 31, 128, 127, 3, 252, 14,
  248, 123, 255, 206, 124, 56, 0, 224, 3, 128, 14, 0, 56, 0, 15, 204, 255, 183, 135, 220, 15, 240, 63, 128,
  126, 1, 248, 7, 224, 31, 128, 127, 3, 220, 15, 120, 124, 255, 112, 249, 192, 7, 0, 28, 0, 112, 1, 192,
  7, 231, 239, 248, 240, 224, 224, 224, 224, 224, 224, 224, 224, 224, 224, 224, 31, 131, 255, 60, 61, 192, 238, 0,
  120, 1, 240, 7, 248, 3, 240, 3, 248, 15, 192, 119, 7, 63, 248, 127, 0, 115, 156, 239, 253, 206, 115, 156,
  231, 57, 206, 115, 206, 224, 126, 7, 224, 126, 7, 224, 126, 7, 224, 126, 7, 224, 126, 7, 224, 126, 15, 241,
  247, 247, 62, 112, 224, 29, 192, 119, 3, 140, 14, 56, 48, 225, 193, 135, 7, 24, 28, 224, 51, 0, 236, 3,
  240, 7, 128, 30, 0, 112, 0, 224, 112, 59, 3, 129, 156, 62, 28, 225, 240, 227, 13, 134, 24, 108, 48, 231,
  115, 131, 51, 152, 25, 140, 192, 236, 110, 7, 227, 240, 30, 15, 0, 240, 120, 7, 131, 192, 28, 28, 0, 112,
  56, 192, 195, 135, 7, 56, 12, 192, 63, 0, 120, 0, 192, 7, 128, 63, 1, 204, 6, 56, 56, 113, 192, 230,
  3, 128, 224, 25, 128, 231, 3, 156, 12, 48, 112, 225, 131, 134, 6, 56, 28, 192, 119, 0, 220, 3, 224, 7,
  128, 28, 0, 112, 1, 192, 6, 0, 56, 0, 224, 31, 0, 120, 0, 255, 255, 255, 0, 96, 14, 1, 192, 56,
  7, 0, 224, 14, 1, 192, 56, 7, 0, 224, 15, 255, 255, 240, 28, 243, 142, 56, 227, 142, 56, 227, 158, 243,
  143, 30, 56, 227, 142, 56, 227, 142, 56, 241, 192, 255, 255, 255, 224, 227, 199, 28, 113, 199, 28, 113, 199, 30,
  60, 115, 222, 113, 199, 28, 113, 199, 28, 115, 206, 0, 112, 15, 193, 207, 24, 63, 1, 224]

/-- FreeSans15pt7b.h:243-338 `FreeSans15pt7bGlyphs`. -/
def freeSansGlyphs : List Glyph := [
  ⟨0, 1, 1, 7, 0, 0⟩,
  ⟨1, 3, 21, 10, 4, (-20)⟩,
  ⟨9, 8, 7, 10, 1, (-20)⟩,
  ⟨16, 16, 20, 16, 0, (-19)⟩,
  ⟨56, 15, 24, 16, 1, (-21)⟩,
  ⟨101, 24, 21, 26, 1, (-20)⟩,
  ⟨164, 16, 21, 19, 2, (-20)⟩,
  ⟨206, 3, 7, 6, 2, (-20)⟩,
  ⟨209, 7, 27, 10, 2, (-20)⟩,
  ⟨233, 7, 27, 10, 1, (-20)⟩,
  ⟨257, 9, 8, 11, 1, (-20)⟩,
  ⟨266, 14, 14, 17, 1, (-13)⟩,
  ⟨291, 3, 7, 8, 3, (-2)⟩,
  ⟨294, 7, 2, 10, 1, (-8)⟩,
  ⟨296, 3, 3, 7, 2, (-2)⟩,
  ⟨298, 8, 21, 8, 0, (-20)⟩,
  ⟨319, 14, 21, 16, 1, (-20)⟩,
  ⟨356, 7, 21, 17, 4, (-20)⟩,
  ⟨375, 14, 21, 16, 1, (-20)⟩,
  ⟨412, 14, 21, 16, 1, (-20)⟩,
  ⟨449, 13, 21, 16, 1, (-20)⟩,
  ⟨484, 14, 21, 16, 1, (-20)⟩,
  ⟨521, 14, 21, 16, 1, (-20)⟩,
  ⟨558, 14, 21, 16, 1, (-20)⟩,
  ⟨595, 14, 21, 16, 1, (-20)⟩,
  ⟨632, 14, 21, 16, 1, (-20)⟩,
  ⟨669, 3, 15, 7, 2, (-14)⟩,
  ⟨675, 4, 19, 7, 2, (-14)⟩,
  ⟨685, 14, 14, 17, 1, (-13)⟩,
  ⟨710, 14, 7, 17, 1, (-9)⟩,
  ⟨723, 15, 14, 17, 1, (-13)⟩,
  ⟨750, 13, 21, 16, 2, (-20)⟩,
  ⟨785, 27, 25, 29, 1, (-20)⟩,
  ⟨870, 19, 21, 19, 0, (-20)⟩,
  ⟨920, 16, 21, 19, 2, (-20)⟩,
  ⟨962, 19, 21, 21, 1, (-20)⟩,
  ⟨1012, 17, 21, 20, 2, (-20)⟩,
  ⟨1057, 15, 21, 18, 2, (-20)⟩,
  ⟨1097, 14, 21, 17, 2, (-20)⟩,
  ⟨1134, 20, 21, 22, 1, (-20)⟩,
  ⟨1187, 17, 21, 21, 2, (-20)⟩,
  ⟨1232, 3, 21, 8, 3, (-20)⟩,
  ⟨1240, 12, 21, 15, 1, (-20)⟩,
  ⟨1272, 17, 21, 20, 2, (-20)⟩,
  ⟨1317, 13, 21, 16, 2, (-20)⟩,
  ⟨1352, 21, 21, 25, 2, (-20)⟩,
  ⟨1408, 17, 21, 21, 2, (-20)⟩,
  ⟨1453, 21, 21, 23, 1, (-20)⟩,
  ⟨1509, 16, 21, 19, 2, (-20)⟩,
  ⟨1551, 21, 23, 23, 1, (-20)⟩,
  ⟨1612, 17, 21, 21, 2, (-20)⟩,
  ⟨1657, 17, 21, 19, 1, (-20)⟩,
  ⟨1702, 15, 21, 18, 2, (-20)⟩,
  ⟨1742, 17, 21, 21, 2, (-20)⟩,
  ⟨1787, 18, 21, 19, 0, (-20)⟩,
  ⟨1835, 27, 21, 27, 0, (-20)⟩,
  ⟨1906, 19, 21, 19, 0, (-20)⟩,
  ⟨1956, 19, 21, 20, 1, (-20)⟩,
  ⟨2006, 16, 21, 18, 1, (-20)⟩,
  ⟨2048, 5, 27, 8, 2, (-20)⟩,
  ⟨2065, 8, 21, 8, 0, (-20)⟩,
  ⟨2086, 5, 27, 8, 1, (-20)⟩,
  ⟨2103, 11, 11, 14, 1, (-20)⟩,
  ⟨2119, 18, 1, 16, (-1), 5⟩,
  ⟨2122, 6, 4, 7, 1, (-20)⟩,
  ⟨2125, 15, 15, 16, 1, (-14)⟩,
  ⟨2154, 14, 21, 16, 2, (-20)⟩,
  ⟨2191, 13, 15, 15, 1, (-14)⟩,
  ⟨2216, 14, 21, 16, 1, (-20)⟩,
  ⟨2253, 14, 15, 15, 1, (-14)⟩,
  ⟨2280, 5, 21, 8, 2, (-20)⟩,
  ⟨2294, 14, 21, 16, 1, (-14)⟩,
  ⟨2331, 12, 21, 16, 2, (-20)⟩,
  ⟨2363, 3, 21, 6, 2, (-20)⟩,
  ⟨2371, 6, 27, 7, 0, (-20)⟩,
  ⟨2392, 13, 21, 15, 2, (-20)⟩,
  ⟨2427, 3, 21, 6, 2, (-20)⟩,
  ⟨2435, 20, 15, 24, 2, (-14)⟩,
  ⟨2473, 12, 15, 16, 2, (-14)⟩,
  ⟨2496, 14, 15, 15, 1, (-14)⟩,
  ⟨2523, 14, 20, 16, 2, (-14)⟩,
  ⟨2558, 14, 20, 16, 1, (-14)⟩,
  ⟨2593, 8, 15, 10, 2, (-14)⟩,
  ⟨2608, 13, 15, 14, 1, (-14)⟩,
  ⟨2633, 5, 19, 8, 2, (-18)⟩,
  ⟨2645, 12, 15, 16, 2, (-14)⟩,
  ⟨2668, 14, 15, 14, 0, (-14)⟩,
  ⟨2695, 21, 15, 21, 0, (-14)⟩,
  ⟨2735, 14, 15, 14, 0, (-14)⟩,
  ⟨2762, 14, 21, 14, 0, (-14)⟩,
  ⟨2799, 12, 15, 14, 1, (-14)⟩,
  ⟨2822, 6, 27, 10, 2, (-20)⟩,
  ⟨2843, 1, 27, 7, 3, (-20)⟩,
  ⟨2847, 6, 27, 10, 3, (-20)⟩,
  ⟨2868, 12, 5, 14, 1, (-12)⟩]

/-- FreeSans15pt7b.h:340-343 `FreeSans15pt7b`. -/
def freeSans : Font := ⟨freeSansBytes.map (BitVec.ofNat 8), freeSansGlyphs, 0x20, 0x7E⟩

end Verif.Font

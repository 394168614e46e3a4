import Verif.Thread

/-!
# The thread tables of HUS, SEW and SHV
-/

namespace Emb

/-- One row of a table: colour, description and catalogue number, with the brand, which is also the chart. -/
def paletteThread (brand : String) (r : Int × String × String) : Thread :=
  { color := r.1, description := some r.2.1, catalog := some r.2.2, brand := some brand, chart := some brand }

/-- `get_thread_set`, `EmbThreadHus.py` 4-35; the constructor, 38-45. -/
def husThreads : List Thread := [
  (0x000000, "Black", "026"), (0x0000e7, "Blue", "005"), (0x00c600, "Green", "002"),
  (0xff0000, "Red", "014"), (0x840084, "Purple", "008"), (0xffff00, "Yellow", "020"),
  (0x848484, "Grey", "024"), (0x8484e7, "Light Blue", "006"), (0x00ff84, "Light Green", "003"),
  (0xff7b31, "Orange", "017"), (0xff8ca5, "Pink", "011"), (0x845200, "Brown", "028"),
  (0xffffff, "White", "022"), (0x000084, "Dark Blue", "004"), (0x008400, "Dark Green", "001"),
  (0x7b0000, "Dark Red", "013"), (0xff6384, "Light Red", "015"), (0x522952, "Dark Purple", "007"),
  (0xff00ff, "Light Purple", "009"), (0xffde00, "Dark Yellow", "019"), (0xffff9c, "Light Yellow", "021"),
  (0x525252, "Dark Grey", "025"), (0xd6d6d6, "Light Grey", "023"), (0xff5208, "Dark Orange", "016"),
  (0xff9c5a, "Light Orange", "018"), (0xff52b5, "Dark Pink", "010"), (0xffc6de, "Light Pink", "012"),
  (0x523100, "Dark Brown", "027"), (0xb5a584, "Light Brown", "029")].map (paletteThread "Hus")

/-- `get_thread_set`, `EmbThreadSew.py` 4-85; the constructor, 88-95. -/
def sewThreads : List Thread := [
  (0x000000, "Unknown", "0"), (0x000000, "Black", "1"), (0xffffff, "White", "2"),
  (0xffff17, "Sunflower", "3"), (0xfaa060, "Hazel", "4"), (0x5c7649, "Green Dust", "5"),
  (0x40c030, "Green", "6"), (0x65c2c8, "Sky", "7"), (0xac80be, "Purple", "8"),
  (0xf5bccb, "Pink", "9"), (0xff0000, "Red", "10"), (0xc08000, "Brown", "11"),
  (0x0000f0, "Blue", "12"), (0xe4c35d, "Gold", "13"), (0xa52a2a, "Dark Brown", "14"),
  (0xd5b0d4, "Pale Violet", "15"), (0xfcf294, "Pale Yellow", "16"), (0xf0d0c0, "Pale Pink", "17"),
  (0xffc000, "Peach", "18"), (0xc9a480, "Beige", "19"), (0x9b3d4b, "Wine Red", "20"),
  (0xa0b8cc, "Pale Sky", "21"), (0x7fc21c, "Yellow Green", "22"), (0xb9b9b9, "Silver Grey", "23"),
  (0xa0a0a0, "Grey", "24"), (0x98d6bd, "Pale Aqua", "25"), (0xb8f0f0, "Baby Blue", "26"),
  (0x368ba0, "Powder Blue", "27"), (0x4f83ab, "Bright Blue", "28"), (0x386a91, "Slate Blue", "29"),
  (0x00206b, "Nave Blue", "30"), (0xe5c5ca, "Salmon Pink", "31"), (0xf9676b, "Coral", "32"),
  (0xe3311f, "Burnt Orange", "33"), (0xe2a188, "Cinnamon", "34"), (0xb59474, "Umber", "35"),
  (0xe4cf99, "Blonde", "36"), (0xe1cb00, "Sunflower", "37"), (0xe1add4, "Orchid Pink", "38"),
  (0xc3007e, "Peony Purple", "39"), (0x80004b, "Burgundy", "40"), (0xa060b0, "Royal Purple", "41"),
  (0xc04020, "Cardinal Red", "42"), (0xcae0c0, "Opal Green", "43"), (0x899856, "Moss Green", "44"),
  (0x00aa00, "Meadow Green", "45"), (0x218a21, "Dark Green", "46"), (0x5dae94, "Aquamarine", "47"),
  (0x4cbf8f, "Emerald Green", "48"), (0x007772, "Peacock Green", "49"), (0x707070, "Dark Grey", "50"),
  (0xf2ffff, "Ivory White", "51"), (0xb15818, "Hazel", "52"), (0xcb8a07, "Toast", "53"),
  (0xf7927b, "Salmon", "54"), (0x98692d, "Cocoa Brown", "55"), (0xa27148, "Sienna", "56"),
  (0x7b554a, "Sepia", "57"), (0x4f3946, "Dark Sepia", "58"), (0x523a97, "Violet Blue", "59"),
  (0x0000a0, "Blue Ink", "60"), (0x0096de, "Solar Blue", "61"), (0xb2dd53, "Green Dust", "62"),
  (0xfa8fbb, "Crimson", "63"), (0xde649e, "Floral Pink", "64"), (0xb55066, "Wine", "65"),
  (0x5e5747, "Olive Drab", "66"), (0x4c881f, "Meadow", "67"), (0xe4dc79, "Canary Yellow", "68"),
  (0xcb8a1a, "Toast", "69"), (0xc6aa42, "Beige", "70"), (0xecb02c, "Honey Dew", "71"),
  (0xf88040, "Tangerine", "72"), (0xffe505, "Ocean Blue", "73"), (0xfa7a7a, "Sepia", "74"),
  (0x6be000, "Royal Purple", "75"), (0x386cae, "Yellow Ocher", "76"), (0xd0bab0, "Beige Grey", "77"),
  (0xe3be81, "Bamboo", "78")].map (paletteThread "Sew")

/-- `get_thread_set`, `EmbThreadShv.py` 4-49; the constructor, 52-59. -/
def shvThreads : List Thread := [
  (0x000000, "Black", "0"), (0x0000ff, "Blue", "1"), (0x33cc66, "Green", "2"),
  (0xff0000, "Red", "3"), (0xff00ff, "Purple", "4"), (0xffff00, "Yellow", "5"),
  (0x7f7f7f, "Gray", "6"), (0x339aff, "Light Blue", "7"), (0x00ff00, "Light Green", "8"),
  (0xff7f00, "Orange", "9"), (0xffa0b4, "Pink", "10"), (0x994b00, "Brown", "11"),
  (0xffffff, "White", "12"), (0x000000, "Black", "13"), (0x000000, "Black", "14"),
  (0x000000, "Black", "15"), (0x000000, "Black", "16"), (0x000000, "Black", "17"),
  (0x000000, "Black", "18"), (0xff7f7f, "Light Red", "19"), (0xff7fff, "Light Purple", "20"),
  (0xffff99, "Light Yellow", "21"), (0xc0c0c0, "Light Gray", "22"), (0x000000, "Black", "23"),
  (0x000000, "Black", "24"), (0xffa541, "Light Orange", "25"), (0xffcccc, "Light Pink", "26"),
  (0xaf5a0a, "Light Brown", "27"), (0x000000, "Black", "28"), (0x000000, "Black", "29"),
  (0x000000, "Black", "30"), (0x000000, "Black", "31"), (0x000000, "Black", "32"),
  (0x00007f, "Dark Blue", "33"), (0x007f00, "Dark Green", "34"), (0x7f0000, "Dark Red", "35"),
  (0x7f007f, "Dark Purple", "36"), (0xc8c800, "Dark Yellow", "37"), (0x3c3c3c, "Dark Gray", "38"),
  (0x000000, "Black", "39"), (0x000000, "Black", "40"), (0xe83f00, "Dark Orange", "41"),
  (0xff667a, "Dark Pink", "42")].map (paletteThread "Shv")

end Emb

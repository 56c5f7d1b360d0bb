import Verif.IconColor

/-!
The named colors of vanillaplusjs/build/css/manips/icons/settings.py, and those of CSS.
-/

namespace Verif.Icons

open Verif.Reader (Text txt)

/-- A row of the table. -/
def row (p : String × Int × Int × Int) : Text × Color := (txt p.1, ⟨p.2.1, p.2.2.1, p.2.2.2⟩)

/-- settings.py:217-365 (`NAMED_CSS_COLORS`): the rows as they stand there. -/
def namedRows : List (String × Int × Int × Int) := [
    ("aliceblue", 240, 248, 255), ("antiquewhite", 250, 235, 215), ("aqua", 0, 255, 255), ("aquamarine", 127, 255, 212),
    ("azure", 240, 255, 255), ("beige", 245, 245, 220), ("bisque", 255, 228, 196), ("black", 0, 0, 0),
    ("blanchedalmond", 255, 235, 205), ("blue", 0, 0, 255), ("blueviolet", 138, 43, 226), ("brown", 165, 42, 42),
    ("burlywood", 222, 184, 135), ("cadetblue", 95, 158, 160), ("chartreuse", 127, 255, 0), ("chocolate", 210, 105, 30),
    ("coral", 255, 127, 80), ("cornflowerblue", 100, 149, 237), ("cornsilk", 255, 248, 220), ("crimson", 220, 20, 60),
    ("cyan", 0, 255, 255), ("darkblue", 0, 0, 139), ("darkcyan", 0, 139, 139), ("darkgoldenrod", 184, 134, 11),
    ("darkgray", 169, 169, 169), ("darkgreen", 0, 100, 0), ("darkkhaki", 189, 183, 107), ("darkmagenta", 139, 0, 139),
    ("darkolivegreen", 85, 107, 47), ("darkorange", 255, 140, 0), ("darkorchid", 153, 50, 204), ("darkred", 139, 0, 0),
    ("darksalmon", 233, 150, 122), ("darkseagreen", 143, 188, 143), ("darkslateblue", 72, 61, 139),
    ("darkslategray", 47, 79, 79), ("darkturquoise", 0, 206, 209), ("darkviolet", 148, 0, 211), ("deeppink", 255, 20, 147),
    ("deepskyblue", 0, 191, 255), ("dimgray", 105, 105, 105), ("dodgerblue", 30, 144, 255), ("firebrick", 178, 34, 34),
    ("floralwhite", 255, 250, 240), ("forestgreen", 34, 139, 34), ("fuchsia", 255, 0, 255), ("gainsboro", 220, 220, 220),
    ("ghostwhite", 248, 248, 255), ("gold", 255, 215, 0), ("goldenrod", 218, 165, 32), ("gray", 127, 127, 127),
    ("green", 0, 128, 0), ("greenyellow", 173, 255, 47), ("honeydew", 240, 255, 240), ("hotpink", 255, 105, 180),
    ("indianred", 205, 92, 92), ("indigo", 75, 0, 130), ("ivory", 255, 255, 240), ("khaki", 240, 230, 140),
    ("lavender", 230, 230, 250), ("lavenderblush", 255, 240, 245), ("lawngreen", 124, 252, 0),
    ("lemonchiffon", 255, 250, 205), ("lightblue", 173, 216, 230), ("lightcoral", 240, 128, 128),
    ("lightcyan", 224, 255, 255), ("lightgoldenrodyellow", 250, 250, 210), ("lightgreen", 144, 238, 144),
    ("lightgrey", 211, 211, 211), ("lightpink", 255, 182, 193), ("lightsalmon", 255, 160, 122),
    ("lightseagreen", 32, 178, 170), ("lightskyblue", 135, 206, 250), ("lightslategray", 119, 136, 153),
    ("lightsteelblue", 176, 196, 222), ("lightyellow", 255, 255, 224), ("lime", 0, 255, 0), ("limegreen", 50, 205, 50),
    ("linen", 250, 240, 230), ("magenta", 255, 0, 255), ("maroon", 128, 0, 0), ("mediumaquamarine", 102, 205, 170),
    ("mediumblue", 0, 0, 205), ("mediumorchid", 186, 85, 211), ("mediumpurple", 147, 112, 219),
    ("mediumseagreen", 60, 179, 113), ("mediumslateblue", 123, 104, 238), ("mediumspringgreen", 0, 250, 154),
    ("mediumturquoise", 72, 209, 204), ("mediumvioletred", 199, 21, 133), ("midnightblue", 25, 25, 112),
    ("mintcream", 245, 255, 250), ("mistyrose", 255, 228, 225), ("moccasin", 255, 228, 181), ("navajowhite", 255, 222, 173),
    ("navy", 0, 0, 128), ("navyblue", 159, 175, 223), ("oldlace", 253, 245, 230), ("olive", 128, 128, 0),
    ("olivedrab", 107, 142, 35), ("orange", 255, 165, 0), ("orangered", 255, 69, 0), ("orchid", 218, 112, 214),
    ("palegoldenrod", 238, 232, 170), ("palegreen", 152, 251, 152), ("paleturquoise", 175, 238, 238),
    ("palevioletred", 219, 112, 147), ("papayawhip", 255, 239, 213), ("peachpuff", 255, 218, 185), ("peru", 205, 133, 63),
    ("pink", 255, 192, 203), ("plum", 221, 160, 221), ("powderblue", 176, 224, 230), ("purple", 128, 0, 128),
    ("red", 255, 0, 0), ("rosybrown", 188, 143, 143), ("royalblue", 65, 105, 225), ("saddlebrown", 139, 69, 19),
    ("salmon", 250, 128, 114), ("sandybrown", 250, 128, 114), ("seagreen", 46, 139, 87), ("seashell", 255, 245, 238),
    ("sienna", 160, 82, 45), ("silver", 192, 192, 192), ("skyblue", 135, 206, 235), ("slateblue", 106, 90, 205),
    ("slategray", 112, 128, 144), ("snow", 255, 250, 250), ("springgreen", 0, 255, 127), ("steelblue", 70, 130, 180),
    ("tan", 210, 180, 140), ("teal", 0, 128, 128), ("thistle", 216, 191, 216), ("tomato", 255, 99, 71),
    ("turquoise", 64, 224, 208), ("violet", 238, 130, 238), ("wheat", 245, 222, 179), ("white", 255, 255, 255),
    ("whitesmoke", 245, 245, 245), ("yellow", 255, 255, 0), ("yellowgreen", 154, 205, 50)]

/-- settings.py:217-365 -/
def named : List (Text × Color) := namedRows.map row

/-! ## Specification -/

/-- The named colors of CSS Color Module Level 4, 6.1. -/
def standardRows : List (String × Int × Int × Int) := [
    ("aliceblue", 0xF0, 0xF8, 0xFF), ("antiquewhite", 0xFA, 0xEB, 0xD7), ("aqua", 0x00, 0xFF, 0xFF),
    ("aquamarine", 0x7F, 0xFF, 0xD4), ("azure", 0xF0, 0xFF, 0xFF), ("beige", 0xF5, 0xF5, 0xDC), ("bisque", 0xFF, 0xE4, 0xC4),
    ("black", 0x00, 0x00, 0x00), ("blanchedalmond", 0xFF, 0xEB, 0xCD), ("blue", 0x00, 0x00, 0xFF),
    ("blueviolet", 0x8A, 0x2B, 0xE2), ("brown", 0xA5, 0x2A, 0x2A), ("burlywood", 0xDE, 0xB8, 0x87),
    ("cadetblue", 0x5F, 0x9E, 0xA0), ("chartreuse", 0x7F, 0xFF, 0x00), ("chocolate", 0xD2, 0x69, 0x1E),
    ("coral", 0xFF, 0x7F, 0x50), ("cornflowerblue", 0x64, 0x95, 0xED), ("cornsilk", 0xFF, 0xF8, 0xDC),
    ("crimson", 0xDC, 0x14, 0x3C), ("cyan", 0x00, 0xFF, 0xFF), ("darkblue", 0x00, 0x00, 0x8B),
    ("darkcyan", 0x00, 0x8B, 0x8B), ("darkgoldenrod", 0xB8, 0x86, 0x0B), ("darkgray", 0xA9, 0xA9, 0xA9),
    ("darkgreen", 0x00, 0x64, 0x00), ("darkgrey", 0xA9, 0xA9, 0xA9), ("darkkhaki", 0xBD, 0xB7, 0x6B),
    ("darkmagenta", 0x8B, 0x00, 0x8B), ("darkolivegreen", 0x55, 0x6B, 0x2F), ("darkorange", 0xFF, 0x8C, 0x00),
    ("darkorchid", 0x99, 0x32, 0xCC), ("darkred", 0x8B, 0x00, 0x00), ("darksalmon", 0xE9, 0x96, 0x7A),
    ("darkseagreen", 0x8F, 0xBC, 0x8F), ("darkslateblue", 0x48, 0x3D, 0x8B), ("darkslategray", 0x2F, 0x4F, 0x4F),
    ("darkslategrey", 0x2F, 0x4F, 0x4F), ("darkturquoise", 0x00, 0xCE, 0xD1), ("darkviolet", 0x94, 0x00, 0xD3),
    ("deeppink", 0xFF, 0x14, 0x93), ("deepskyblue", 0x00, 0xBF, 0xFF), ("dimgray", 0x69, 0x69, 0x69),
    ("dimgrey", 0x69, 0x69, 0x69), ("dodgerblue", 0x1E, 0x90, 0xFF), ("firebrick", 0xB2, 0x22, 0x22),
    ("floralwhite", 0xFF, 0xFA, 0xF0), ("forestgreen", 0x22, 0x8B, 0x22), ("fuchsia", 0xFF, 0x00, 0xFF),
    ("gainsboro", 0xDC, 0xDC, 0xDC), ("ghostwhite", 0xF8, 0xF8, 0xFF), ("gold", 0xFF, 0xD7, 0x00),
    ("goldenrod", 0xDA, 0xA5, 0x20), ("gray", 0x80, 0x80, 0x80), ("green", 0x00, 0x80, 0x00),
    ("greenyellow", 0xAD, 0xFF, 0x2F), ("grey", 0x80, 0x80, 0x80), ("honeydew", 0xF0, 0xFF, 0xF0),
    ("hotpink", 0xFF, 0x69, 0xB4), ("indianred", 0xCD, 0x5C, 0x5C), ("indigo", 0x4B, 0x00, 0x82),
    ("ivory", 0xFF, 0xFF, 0xF0), ("khaki", 0xF0, 0xE6, 0x8C), ("lavender", 0xE6, 0xE6, 0xFA),
    ("lavenderblush", 0xFF, 0xF0, 0xF5), ("lawngreen", 0x7C, 0xFC, 0x00), ("lemonchiffon", 0xFF, 0xFA, 0xCD),
    ("lightblue", 0xAD, 0xD8, 0xE6), ("lightcoral", 0xF0, 0x80, 0x80), ("lightcyan", 0xE0, 0xFF, 0xFF),
    ("lightgoldenrodyellow", 0xFA, 0xFA, 0xD2), ("lightgray", 0xD3, 0xD3, 0xD3), ("lightgreen", 0x90, 0xEE, 0x90),
    ("lightgrey", 0xD3, 0xD3, 0xD3), ("lightpink", 0xFF, 0xB6, 0xC1), ("lightsalmon", 0xFF, 0xA0, 0x7A),
    ("lightseagreen", 0x20, 0xB2, 0xAA), ("lightskyblue", 0x87, 0xCE, 0xFA), ("lightslategray", 0x77, 0x88, 0x99),
    ("lightslategrey", 0x77, 0x88, 0x99), ("lightsteelblue", 0xB0, 0xC4, 0xDE), ("lightyellow", 0xFF, 0xFF, 0xE0),
    ("lime", 0x00, 0xFF, 0x00), ("limegreen", 0x32, 0xCD, 0x32), ("linen", 0xFA, 0xF0, 0xE6), ("magenta", 0xFF, 0x00, 0xFF),
    ("maroon", 0x80, 0x00, 0x00), ("mediumaquamarine", 0x66, 0xCD, 0xAA), ("mediumblue", 0x00, 0x00, 0xCD),
    ("mediumorchid", 0xBA, 0x55, 0xD3), ("mediumpurple", 0x93, 0x70, 0xDB), ("mediumseagreen", 0x3C, 0xB3, 0x71),
    ("mediumslateblue", 0x7B, 0x68, 0xEE), ("mediumspringgreen", 0x00, 0xFA, 0x9A), ("mediumturquoise", 0x48, 0xD1, 0xCC),
    ("mediumvioletred", 0xC7, 0x15, 0x85), ("midnightblue", 0x19, 0x19, 0x70), ("mintcream", 0xF5, 0xFF, 0xFA),
    ("mistyrose", 0xFF, 0xE4, 0xE1), ("moccasin", 0xFF, 0xE4, 0xB5), ("navajowhite", 0xFF, 0xDE, 0xAD),
    ("navy", 0x00, 0x00, 0x80), ("oldlace", 0xFD, 0xF5, 0xE6), ("olive", 0x80, 0x80, 0x00), ("olivedrab", 0x6B, 0x8E, 0x23),
    ("orange", 0xFF, 0xA5, 0x00), ("orangered", 0xFF, 0x45, 0x00), ("orchid", 0xDA, 0x70, 0xD6),
    ("palegoldenrod", 0xEE, 0xE8, 0xAA), ("palegreen", 0x98, 0xFB, 0x98), ("paleturquoise", 0xAF, 0xEE, 0xEE),
    ("palevioletred", 0xDB, 0x70, 0x93), ("papayawhip", 0xFF, 0xEF, 0xD5), ("peachpuff", 0xFF, 0xDA, 0xB9),
    ("peru", 0xCD, 0x85, 0x3F), ("pink", 0xFF, 0xC0, 0xCB), ("plum", 0xDD, 0xA0, 0xDD), ("powderblue", 0xB0, 0xE0, 0xE6),
    ("purple", 0x80, 0x00, 0x80), ("rebeccapurple", 0x66, 0x33, 0x99), ("red", 0xFF, 0x00, 0x00),
    ("rosybrown", 0xBC, 0x8F, 0x8F), ("royalblue", 0x41, 0x69, 0xE1), ("saddlebrown", 0x8B, 0x45, 0x13),
    ("salmon", 0xFA, 0x80, 0x72), ("sandybrown", 0xF4, 0xA4, 0x60), ("seagreen", 0x2E, 0x8B, 0x57),
    ("seashell", 0xFF, 0xF5, 0xEE), ("sienna", 0xA0, 0x52, 0x2D), ("silver", 0xC0, 0xC0, 0xC0),
    ("skyblue", 0x87, 0xCE, 0xEB), ("slateblue", 0x6A, 0x5A, 0xCD), ("slategray", 0x70, 0x80, 0x90),
    ("slategrey", 0x70, 0x80, 0x90), ("snow", 0xFF, 0xFA, 0xFA), ("springgreen", 0x00, 0xFF, 0x7F),
    ("steelblue", 0x46, 0x82, 0xB4), ("tan", 0xD2, 0xB4, 0x8C), ("teal", 0x00, 0x80, 0x80), ("thistle", 0xD8, 0xBF, 0xD8),
    ("tomato", 0xFF, 0x63, 0x47), ("turquoise", 0x40, 0xE0, 0xD0), ("violet", 0xEE, 0x82, 0xEE), ("wheat", 0xF5, 0xDE, 0xB3),
    ("white", 0xFF, 0xFF, 0xFF), ("whitesmoke", 0xF5, 0xF5, 0xF5), ("yellow", 0xFF, 0xFF, 0x00),
    ("yellowgreen", 0x9A, 0xCD, 0x32)]

end Verif.Icons

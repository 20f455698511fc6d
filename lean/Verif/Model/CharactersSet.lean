import Verif.Model.Corr
/-!
# `src/characters_set.rs` and `src/characters_set/*.rs`

The tables in this file are generated from the Rust source by a script: each line is one
`pub const NAME: Correspondence<Linear> = Linear::new(from, to).corr();` in the order in
which `items()` adds them; the Rust line of the constant is given in the comment.
-/

namespace Chanoma

/-- The shape shared by all `items()` below: `(C1 + &C2 + ... + &Cn).items()`, a left-nested
chain of `Correspondence` additions of one-item correspondences. -/
def sumChain (σ : Oracle) : List Item → List Item
  | [] => []
  | c :: cs => cs.foldl (fun acc i => corrAdd σ acc (linearItems i.from i.to)) (linearItems c.from c.to)

/-- The constants of `/repo/src/characters_set/digits.rs`, in the order of `Digits::items`. -/
def digitsConsts : List Item := [
  ⟨['０'], ['0']⟩, -- DIGIT_ZERO, line 26
  ⟨['１'], ['1']⟩, -- DIGIT_ONE, line 28
  ⟨['２'], ['2']⟩, -- DIGIT_TWO, line 30
  ⟨['３'], ['3']⟩, -- DIGIT_THREE, line 32
  ⟨['４'], ['4']⟩, -- DIGIT_FOUR, line 34
  ⟨['５'], ['5']⟩, -- DIGIT_FIVE, line 36
  ⟨['６'], ['6']⟩, -- DIGIT_SIX, line 38
  ⟨['７'], ['7']⟩, -- DIGIT_SEVEN, line 40
  ⟨['８'], ['8']⟩, -- DIGIT_EIGHT, line 42
  ⟨['９'], ['9']⟩  -- DIGIT_NINE, line 44
]

/-- `/repo/src/characters_set/digits.rs:9-21`, `Digits::items`. -/
def digitsItems (σ : Oracle) : List Item := sumChain σ digitsConsts

/-- The constants of `/repo/src/characters_set/punctuations.rs`, in the order of `Punctuations::items`. -/
def punctuationsConsts : List Item := [
  ⟨['！'], ['!']⟩, -- EXCLAMATION_MARK, line 49
  ⟨['”'], ['"']⟩, -- QUOTATION_MARK, line 51
  ⟨['＃'], ['#']⟩, -- SHARP, line 53
  ⟨['＄'], ['$']⟩, -- DOLLER_SIGN, line 55
  ⟨['％'], ['%']⟩, -- PERCENT_SIGN, line 57
  ⟨['＆'], ['&']⟩, -- AMPERSAND, line 59
  ⟨['’'], ['\'']⟩, -- APOSTROPHE, line 61
  ⟨['（'], ['(']⟩, -- LEFT_PARENTHESIS, line 63
  ⟨['）'], [')']⟩, -- RIGHT_PARENTHESIS, line 65
  ⟨['＊'], ['*']⟩, -- ASTERISK, line 67
  ⟨['＋'], ['+']⟩, -- PLUS_SIGN, line 69
  ⟨['，'], [',']⟩, -- COMMA, line 71
  ⟨['－'], ['-']⟩, -- HYPHEN_MINUS, line 73
  ⟨['．'], ['.']⟩, -- FULL_STOP, line 75
  ⟨['／'], ['/']⟩, -- SLASH, line 77
  ⟨['：'], [':']⟩, -- COLON, line 80
  ⟨['；'], [';']⟩, -- SEMI_COLON, line 82
  ⟨['＜'], ['<']⟩, -- LESS_THAN_SIGN, line 84
  ⟨['＝'], ['=']⟩, -- EQUAL_SIGN, line 86
  ⟨['＞'], ['>']⟩, -- GREATER_THAN_SIGN, line 88
  ⟨['？'], ['?']⟩, -- QUESTION_MARK, line 90
  ⟨['＠'], ['@']⟩, -- AT_SIGN, line 92
  ⟨['［'], ['[']⟩, -- LEFT_SQUARE_BRACKET, line 95
  ⟨['＼'], ['\\']⟩, -- BACKSLASH, line 97
  ⟨['￥'], ['¥']⟩, -- YEN_SIGN, line 99
  ⟨['］'], [']']⟩, -- RIGHT_SQUARE_BRACKET, line 101
  ⟨['＾'], ['^']⟩, -- CIRCUMFLEX_ACCENT, line 103
  ⟨['＿'], ['_']⟩, -- LOW_LINE, line 105
  ⟨['｀'], ['`']⟩, -- GRAVE_ACCENT, line 107
  ⟨['｛'], ['{']⟩, -- LEFT_CURLY_BRACKET, line 110
  ⟨['｜'], ['|']⟩, -- VERTICAL_BAR, line 112
  ⟨['｝'], ['}']⟩, -- RIGHT_CURLY_BRACKET, line 114
  ⟨['〜'], ['~']⟩  -- TILDE, line 116
]

/-- `/repo/src/characters_set/punctuations.rs:9-44`, `Punctuations::items`. -/
def punctuationsItems (σ : Oracle) : List Item := sumChain σ punctuationsConsts

/-- The constants of `/repo/src/characters_set/alphabets.rs`, in the order of `Alphabets::items`. -/
def alphabetsConsts : List Item := [
  ⟨['Ａ'], ['A']⟩, -- CAPITAL_LETTER_A, line 68
  ⟨['Ｂ'], ['B']⟩, -- CAPITAL_LETTER_B, line 70
  ⟨['Ｃ'], ['C']⟩, -- CAPITAL_LETTER_C, line 72
  ⟨['Ｄ'], ['D']⟩, -- CAPITAL_LETTER_D, line 74
  ⟨['Ｅ'], ['E']⟩, -- CAPITAL_LETTER_E, line 76
  ⟨['Ｆ'], ['F']⟩, -- CAPITAL_LETTER_F, line 78
  ⟨['Ｇ'], ['G']⟩, -- CAPITAL_LETTER_G, line 80
  ⟨['Ｈ'], ['H']⟩, -- CAPITAL_LETTER_H, line 82
  ⟨['Ｉ'], ['I']⟩, -- CAPITAL_LETTER_I, line 84
  ⟨['Ｊ'], ['J']⟩, -- CAPITAL_LETTER_J, line 86
  ⟨['Ｋ'], ['K']⟩, -- CAPITAL_LETTER_K, line 88
  ⟨['Ｌ'], ['L']⟩, -- CAPITAL_LETTER_L, line 90
  ⟨['Ｍ'], ['M']⟩, -- CAPITAL_LETTER_M, line 92
  ⟨['Ｎ'], ['N']⟩, -- CAPITAL_LETTER_N, line 94
  ⟨['Ｏ'], ['O']⟩, -- CAPITAL_LETTER_O, line 96
  ⟨['Ｐ'], ['P']⟩, -- CAPITAL_LETTER_P, line 98
  ⟨['Ｑ'], ['Q']⟩, -- CAPITAL_LETTER_Q, line 100
  ⟨['Ｒ'], ['R']⟩, -- CAPITAL_LETTER_R, line 102
  ⟨['Ｓ'], ['S']⟩, -- CAPITAL_LETTER_S, line 104
  ⟨['Ｔ'], ['T']⟩, -- CAPITAL_LETTER_T, line 106
  ⟨['Ｕ'], ['U']⟩, -- CAPITAL_LETTER_U, line 108
  ⟨['Ｖ'], ['V']⟩, -- CAPITAL_LETTER_V, line 110
  ⟨['Ｗ'], ['W']⟩, -- CAPITAL_LETTER_W, line 112
  ⟨['Ｘ'], ['X']⟩, -- CAPITAL_LETTER_X, line 114
  ⟨['Ｙ'], ['Y']⟩, -- CAPITAL_LETTER_Y, line 116
  ⟨['Ｚ'], ['Z']⟩, -- CAPITAL_LETTER_Z, line 118
  ⟨['ａ'], ['a']⟩, -- SMALL_LETTER_A, line 121
  ⟨['ｂ'], ['b']⟩, -- SMALL_LETTER_B, line 123
  ⟨['ｃ'], ['c']⟩, -- SMALL_LETTER_C, line 125
  ⟨['ｄ'], ['d']⟩, -- SMALL_LETTER_D, line 127
  ⟨['ｅ'], ['e']⟩, -- SMALL_LETTER_E, line 129
  ⟨['ｆ'], ['f']⟩, -- SMALL_LETTER_F, line 131
  ⟨['ｇ'], ['g']⟩, -- SMALL_LETTER_G, line 133
  ⟨['ｈ'], ['h']⟩, -- SMALL_LETTER_H, line 135
  ⟨['ｉ'], ['i']⟩, -- SMALL_LETTER_I, line 137
  ⟨['ｊ'], ['j']⟩, -- SMALL_LETTER_J, line 139
  ⟨['ｋ'], ['k']⟩, -- SMALL_LETTER_K, line 141
  ⟨['ｌ'], ['l']⟩, -- SMALL_LETTER_L, line 143
  ⟨['ｍ'], ['m']⟩, -- SMALL_LETTER_M, line 145
  ⟨['ｎ'], ['n']⟩, -- SMALL_LETTER_N, line 147
  ⟨['ｏ'], ['o']⟩, -- SMALL_LETTER_O, line 149
  ⟨['ｐ'], ['p']⟩, -- SMALL_LETTER_P, line 151
  ⟨['ｑ'], ['q']⟩, -- SMALL_LETTER_Q, line 153
  ⟨['ｒ'], ['r']⟩, -- SMALL_LETTER_R, line 155
  ⟨['ｓ'], ['s']⟩, -- SMALL_LETTER_S, line 157
  ⟨['ｔ'], ['t']⟩, -- SMALL_LETTER_T, line 159
  ⟨['ｕ'], ['u']⟩, -- SMALL_LETTER_U, line 161
  ⟨['ｖ'], ['v']⟩, -- SMALL_LETTER_V, line 163
  ⟨['ｗ'], ['w']⟩, -- SMALL_LETTER_W, line 165
  ⟨['ｘ'], ['x']⟩, -- SMALL_LETTER_X, line 167
  ⟨['ｙ'], ['y']⟩, -- SMALL_LETTER_Y, line 169
  ⟨['ｚ'], ['z']⟩  -- SMALL_LETTER_Z, line 171
]

/-- `/repo/src/characters_set/alphabets.rs:9-63`, `Alphabets::items`. -/
def alphabetsItems (σ : Oracle) : List Item := sumChain σ alphabetsConsts

/-- The constants of `/repo/src/characters_set/kanas.rs`, in the order of `Kanas::items`. -/
def kanasConsts : List Item := [
  ⟨['ｧ'], ['ァ']⟩, -- KATAKANA_LETTER_SMALL_A, line 77
  ⟨['ｱ'], ['ア']⟩, -- KATAKANA_LETTER_A, line 78
  ⟨['ｨ'], ['ィ']⟩, -- KATAKANA_LETTER_SMALL_I, line 79
  ⟨['ｲ'], ['イ']⟩, -- KATAKANA_LETTER_I, line 80
  ⟨['ｩ'], ['ゥ']⟩, -- KATAKANA_LETTER_SMALL_U, line 81
  ⟨['ｳ'], ['ウ']⟩, -- KATAKANA_LETTER_U, line 82
  ⟨['ｪ'], ['ェ']⟩, -- KATAKANA_LETTER_SMALL_E, line 83
  ⟨['ｴ'], ['エ']⟩, -- KATAKANA_LETTER_E, line 84
  ⟨['ｫ'], ['ォ']⟩, -- KATAKANA_LETTER_SMALL_O, line 85
  ⟨['ｵ'], ['オ']⟩, -- KATAKANA_LETTER_O, line 86
  ⟨['ｶ'], ['カ']⟩, -- KATAKANA_LETTER_KA, line 88
  ⟨['ｷ'], ['キ']⟩, -- KATAKANA_LETTER_KI, line 89
  ⟨['ｸ'], ['ク']⟩, -- KATAKANA_LETTER_KU, line 90
  ⟨['ｹ'], ['ケ']⟩, -- KATAKANA_LETTER_KE, line 91
  ⟨['ｺ'], ['コ']⟩, -- KATAKANA_LETTER_KO, line 92
  ⟨['ｻ'], ['サ']⟩, -- KATAKANA_LETTER_SA, line 94
  ⟨['ｼ'], ['シ']⟩, -- KATAKANA_LETTER_SI, line 95
  ⟨['ｽ'], ['ス']⟩, -- KATAKANA_LETTER_SU, line 96
  ⟨['ｾ'], ['セ']⟩, -- KATAKANA_LETTER_SE, line 97
  ⟨['ｿ'], ['ソ']⟩, -- KATAKANA_LETTER_SO, line 98
  ⟨['ﾀ'], ['タ']⟩, -- KATAKANA_LETTER_TA, line 100
  ⟨['ﾁ'], ['チ']⟩, -- KATAKANA_LETTER_TI, line 101
  ⟨['ｯ'], ['ッ']⟩, -- KATAKANA_LETTER_SMALL_TU, line 102
  ⟨['ﾂ'], ['ツ']⟩, -- KATAKANA_LETTER_TU, line 103
  ⟨['ﾃ'], ['テ']⟩, -- KATAKANA_LETTER_TE, line 104
  ⟨['ﾄ'], ['ト']⟩, -- KATAKANA_LETTER_TO, line 105
  ⟨['ﾅ'], ['ナ']⟩, -- KATAKANA_LETTER_NA, line 107
  ⟨['ﾆ'], ['ニ']⟩, -- KATAKANA_LETTER_NI, line 108
  ⟨['ﾇ'], ['ヌ']⟩, -- KATAKANA_LETTER_NU, line 109
  ⟨['ﾈ'], ['ネ']⟩, -- KATAKANA_LETTER_NE, line 110
  ⟨['ﾉ'], ['ノ']⟩, -- KATAKANA_LETTER_NO, line 111
  ⟨['ﾊ'], ['ハ']⟩, -- KATAKANA_LETTER_HA, line 113
  ⟨['ﾋ'], ['ヒ']⟩, -- KATAKANA_LETTER_HI, line 114
  ⟨['ﾌ'], ['フ']⟩, -- KATAKANA_LETTER_HU, line 115
  ⟨['ﾍ'], ['ヘ']⟩, -- KATAKANA_LETTER_HE, line 116
  ⟨['ﾎ'], ['ホ']⟩, -- KATAKANA_LETTER_HO, line 117
  ⟨['ﾏ'], ['マ']⟩, -- KATAKANA_LETTER_MA, line 119
  ⟨['ﾐ'], ['ミ']⟩, -- KATAKANA_LETTER_MI, line 120
  ⟨['ﾑ'], ['ム']⟩, -- KATAKANA_LETTER_MU, line 121
  ⟨['ﾒ'], ['メ']⟩, -- KATAKANA_LETTER_ME, line 122
  ⟨['ﾓ'], ['モ']⟩, -- KATAKANA_LETTER_MO, line 123
  ⟨['ｬ'], ['ャ']⟩, -- KATAKANA_LETTER_SMALL_YA, line 125
  ⟨['ﾔ'], ['ヤ']⟩, -- KATAKANA_LETTER_YA, line 126
  ⟨['ｭ'], ['ュ']⟩, -- KATAKANA_LETTER_SMALL_YU, line 127
  ⟨['ﾕ'], ['ユ']⟩, -- KATAKANA_LETTER_YU, line 128
  ⟨['ｮ'], ['ョ']⟩, -- KATAKANA_LETTER_SMALL_YO, line 129
  ⟨['ﾖ'], ['ヨ']⟩, -- KATAKANA_LETTER_YO, line 130
  ⟨['ﾗ'], ['ラ']⟩, -- KATAKANA_LETTER_RA, line 132
  ⟨['ﾘ'], ['リ']⟩, -- KATAKANA_LETTER_RI, line 133
  ⟨['ﾙ'], ['ル']⟩, -- KATAKANA_LETTER_RU, line 134
  ⟨['ﾚ'], ['レ']⟩, -- KATAKANA_LETTER_RE, line 135
  ⟨['ﾛ'], ['ロ']⟩, -- KATAKANA_LETTER_RO, line 136
  ⟨['ﾜ'], ['ワ']⟩, -- KATAKANA_LETTER_WA, line 138
  ⟨['ｦ'], ['ヲ']⟩, -- KATAKANA_LETTER_WO, line 139
  ⟨['ﾝ'], ['ン']⟩, -- KATAKANA_LETTER_N, line 140
  ⟨['､'], ['、']⟩, -- IDEOGRAPHIC_COMMA, line 142
  ⟨['｡'], ['。']⟩, -- IDEOGRAPHIC_FULL_STOP, line 143
  ⟨['･'], ['・']⟩, -- KATAKANA_MIDDLE_DOT, line 144
  ⟨['｢'], ['「']⟩, -- LEFT_CORNER_BRACKET, line 145
  ⟨['｣'], ['」']⟩, -- RIGHT_CORNER_BRACKET, line 146
  ⟨['\u3000'], [' ']⟩  -- IDEOGRAPHIC_SPACE, line 148
]

/-- `/repo/src/characters_set/kanas.rs:9-72`, `Kanas::items`. -/
def kanasItems (σ : Oracle) : List Item := sumChain σ kanasConsts

/-- The constants of `/repo/src/characters_set/cjk_compatibilities.rs`, in the order of `CjkCompatibilities::items`. -/
def cjkConsts : List Item := [
  ⟨['\u3300'], ['ア', 'パ', 'ー', 'ト']⟩, -- SQUARE_APAATO, line 279
  ⟨['\u3301'], ['ア', 'ル', 'フ', 'ァ']⟩, -- SQUARE_ARUHUA, line 280
  ⟨['\u3302'], ['ア', 'ン', 'ペ', 'ア']⟩, -- SQUARE_ANPEA, line 281
  ⟨['\u3303'], ['ア', 'ー', 'ル']⟩, -- SQUARE_AARU, line 282
  ⟨['\u3304'], ['イ', 'ニ', 'ン', 'グ']⟩, -- SQUARE_ININGU, line 283
  ⟨['\u3305'], ['イ', 'ン', 'チ']⟩, -- SQUARE_INTI, line 284
  ⟨['\u3306'], ['ウ', 'ォ', 'ン']⟩, -- SQUARE_UON, line 285
  ⟨['\u3307'], ['エ', 'ス', 'ク', 'ー', 'ド']⟩, -- SQUARE_ESUKUUDO, line 286
  ⟨['\u3308'], ['エ', 'ー', 'カ', 'ー']⟩, -- SQUARE_EEKAA, line 287
  ⟨['\u3309'], ['オ', 'ン', 'ス']⟩, -- SQUARE_ONSU, line 288
  ⟨['\u330a'], ['オ', 'ー', 'ム']⟩, -- SQUARE_OOMU, line 289
  ⟨['\u330b'], ['カ', 'イ', 'リ']⟩, -- SQUARE_KAIRI, line 290
  ⟨['\u330c'], ['カ', 'ラ', 'ッ', 'ト']⟩, -- SQUARE_KARATTO, line 291
  ⟨['\u330d'], ['カ', 'ロ', 'リ', 'ー']⟩, -- SQUARE_KARORII, line 292
  ⟨['\u330e'], ['ガ', 'ロ', 'ン']⟩, -- SQUARE_GARON, line 293
  ⟨['\u330f'], ['ガ', 'ン', 'マ']⟩, -- SQUARE_GANMA, line 294
  ⟨['\u3310'], ['ギ', 'ガ']⟩, -- SQUARE_GIGA, line 295
  ⟨['\u3311'], ['ギ', 'ニ', 'ー']⟩, -- SQUARE_GINII, line 296
  ⟨['\u3312'], ['キ', 'ュ', 'リ', 'ー']⟩, -- SQUARE_KYURII, line 297
  ⟨['\u3313'], ['ギ', 'ル', 'ダ', 'ー']⟩, -- SQUARE_GIRUDAA, line 298
  ⟨['\u3314'], ['キ', 'ロ']⟩, -- SQUARE_KIRO, line 299
  ⟨['\u3315'], ['キ', 'ロ', 'グ', 'ラ', 'ム']⟩, -- SQUARE_KIROGURAMU, line 300
  ⟨['\u3316'], ['キ', 'ロ', 'メ', 'ー', 'ト', 'ル']⟩, -- SQUARE_KIROMEETORU, line 301
  ⟨['\u3317'], ['キ', 'ロ', 'ワ', 'ッ', 'ト']⟩, -- SQUARE_KIROWATTO, line 303
  ⟨['\u3318'], ['グ', 'ラ', 'ム']⟩, -- SQUARE_GURAMU, line 304
  ⟨['\u3319'], ['グ', 'ラ', 'ム', 'ト', 'ン']⟩, -- SQUARE_GURAMUTON, line 305
  ⟨['\u331a'], ['ク', 'ル', 'ゼ', 'イ', 'ロ']⟩, -- SQUARE_KURUZEIRO, line 306
  ⟨['\u331b'], ['ク', 'ロ', 'ー', 'ネ']⟩, -- SQUARE_KUROONE, line 307
  ⟨['\u331c'], ['ケ', 'ー', 'ス']⟩, -- SQUARE_KEESU, line 308
  ⟨['\u331d'], ['コ', 'ル', 'ナ']⟩, -- SQUARE_KORUNA, line 309
  ⟨['\u331e'], ['コ', 'ー', 'ポ']⟩, -- SQUARE_KOOPO, line 310
  ⟨['\u331f'], ['サ', 'イ', 'ク', 'ル']⟩, -- SQUARE_SAIKURU, line 311
  ⟨['\u3320'], ['サ', 'ン', 'チ', 'ー', 'ム']⟩, -- SQUARE_SANTIIMU, line 312
  ⟨['\u3321'], ['シ', 'リ', 'ン', 'グ']⟩, -- SQUARE_SIRINGU, line 313
  ⟨['\u3322'], ['セ', 'ン', 'チ']⟩, -- SQUARE_SENTI, line 314
  ⟨['\u3323'], ['セ', 'ン', 'ト']⟩, -- SQUARE_SENTO, line 315
  ⟨['\u3324'], ['ダ', 'ー', 'ス']⟩, -- SQUARE_DAASU, line 316
  ⟨['\u3325'], ['デ', 'シ']⟩, -- SQUARE_DESI, line 317
  ⟨['\u3326'], ['ド', 'ル']⟩, -- SQUARE_DORU, line 318
  ⟨['\u3327'], ['ト', 'ン']⟩, -- SQUARE_TON, line 319
  ⟨['\u3328'], ['ナ', 'ノ']⟩, -- SQUARE_NANO, line 320
  ⟨['\u3329'], ['ノ', 'ッ', 'ト']⟩, -- SQUARE_NOTTO, line 321
  ⟨['\u332a'], ['ハ', 'イ', 'ツ']⟩, -- SQUARE_HAITU, line 322
  ⟨['\u332b'], ['パ', 'ー', 'セ', 'ン', 'ト']⟩, -- SQUARE_PAASENTO, line 323
  ⟨['\u332c'], ['パ', 'ー', 'ツ']⟩, -- SQUARE_PAATU, line 324
  ⟨['\u332d'], ['バ', 'ー', 'レ', 'ル']⟩, -- SQUARE_BAARERU, line 325
  ⟨['\u332e'], ['ピ', 'ア', 'ス', 'ト', 'ル']⟩, -- SQUARE_PIASUTORU, line 326
  ⟨['\u332f'], ['ピ', 'ク', 'ル']⟩, -- SQUARE_PIKURU, line 327
  ⟨['\u3330'], ['ピ', 'コ']⟩, -- SQUARE_PIKO, line 328
  ⟨['\u3331'], ['ビ', 'ル']⟩, -- SQUARE_BIRU, line 329
  ⟨['\u3332'], ['フ', 'ァ', 'ラ', 'ッ', 'ド']⟩, -- SQUARE_HUARADDO, line 330
  ⟨['\u3333'], ['フ', 'ィ', 'ー', 'ト']⟩, -- SQUARE_HUIITO, line 331
  ⟨['\u3334'], ['ブ', 'ッ', 'シ', 'ェ', 'ル']⟩, -- SQUARE_BUSSYERU, line 332
  ⟨['\u3335'], ['フ', 'ラ', 'ン']⟩, -- SQUARE_HURAN, line 333
  ⟨['\u3336'], ['ヘ', 'ク', 'タ', 'ー', 'ル']⟩, -- SQUARE_HEKUTAARU, line 334
  ⟨['\u3337'], ['ペ', 'ソ']⟩, -- SQUARE_PESO, line 335
  ⟨['\u3338'], ['ペ', 'ニ', 'ヒ']⟩, -- SQUARE_PENIHI, line 336
  ⟨['\u3339'], ['ヘ', 'ル', 'ツ']⟩, -- SQUARE_HERUTU, line 337
  ⟨['\u333a'], ['ペ', 'ン', 'ス']⟩, -- SQUARE_PENSU, line 338
  ⟨['\u333b'], ['ペ', 'ー', 'ジ']⟩, -- SQUARE_PEEZI, line 339
  ⟨['\u333c'], ['ベ', 'ー', 'タ']⟩, -- SQUARE_BEETA, line 340
  ⟨['\u333d'], ['ポ', 'イ', 'ン', 'ト']⟩, -- SQUARE_POINTO, line 341
  ⟨['\u333e'], ['ボ', 'ル', 'ト']⟩, -- SQUARE_BORUTO, line 342
  ⟨['\u333f'], ['ホ', 'ン']⟩, -- SQUARE_HON, line 343
  ⟨['\u3340'], ['ポ', 'ン', 'ド']⟩, -- SQUARE_PONDO, line 344
  ⟨['\u3341'], ['ホ', 'ー', 'ル']⟩, -- SQUARE_HOORU, line 345
  ⟨['\u3342'], ['ホ', 'ー', 'ン']⟩, -- SQUARE_HOON, line 346
  ⟨['\u3343'], ['マ', 'イ', 'ク', 'ロ']⟩, -- SQUARE_MAIKURO, line 347
  ⟨['\u3344'], ['マ', 'イ', 'ル']⟩, -- SQUARE_MAIRU, line 348
  ⟨['\u3345'], ['マ', 'ッ', 'ハ']⟩, -- SQUARE_MAHHA, line 349
  ⟨['\u3346'], ['マ', 'ル', 'ク']⟩, -- SQUARE_MARUKU, line 350
  ⟨['\u3347'], ['マ', 'ン', 'シ', 'ョ', 'ン']⟩, -- SQUARE_MANSYON, line 351
  ⟨['\u3348'], ['ミ', 'ク', 'ロ', 'ン']⟩, -- SQUARE_MIKURON, line 352
  ⟨['\u3349'], ['ミ', 'リ']⟩, -- SQUARE_MIRI, line 353
  ⟨['\u334a'], ['ミ', 'リ', 'バ', 'ー', 'ル']⟩, -- SQUARE_MIRIBAARU, line 354
  ⟨['\u334b'], ['メ', 'ガ']⟩, -- SQUARE_MEGA, line 355
  ⟨['\u334c'], ['メ', 'ガ', 'ト', 'ン']⟩, -- SQUARE_MEGATON, line 356
  ⟨['\u334d'], ['メ', 'ー', 'ト', 'ル']⟩, -- SQUARE_MEETORU, line 357
  ⟨['\u334e'], ['ヤ', 'ー', 'ド']⟩, -- SQUARE_YAADO, line 358
  ⟨['\u334f'], ['ヤ', 'ー', 'ル']⟩, -- SQUARE_YAARU, line 359
  ⟨['\u3350'], ['ユ', 'ア', 'ン']⟩, -- SQUARE_YUAN, line 360
  ⟨['\u3351'], ['リ', 'ッ', 'ト', 'ル']⟩, -- SQUARE_RITTORU, line 361
  ⟨['\u3352'], ['リ', 'ラ']⟩, -- SQUARE_RIRA, line 362
  ⟨['\u3353'], ['ル', 'ピ', 'ー']⟩, -- SQUARE_RUPII, line 363
  ⟨['\u3354'], ['ル', 'ー', 'ブ', 'ル']⟩, -- SQUARE_RUUBURU, line 364
  ⟨['\u3355'], ['レ', 'ム']⟩, -- SQUARE_REMU, line 365
  ⟨['\u3356'], ['レ', 'ン', 'ト', 'ゲ', 'ン']⟩, -- SQUARE_RENTOGEN, line 366
  ⟨['\u3357'], ['ワ', 'ッ', 'ト']⟩, -- SQUARE_WATTO, line 367
  ⟨['\u3358'], ['0', '点']⟩, -- IDEOGRAPHIC_TELEGRAPH_SYMBOL_FOR_HOUR_ZERO, line 368
  ⟨['\u3359'], ['1', '点']⟩, -- IDEOGRAPHIC_TELEGRAPH_SYMBOL_FOR_HOUR_ONE, line 370
  ⟨['\u335a'], ['2', '点']⟩, -- IDEOGRAPHIC_TELEGRAPH_SYMBOL_FOR_HOUR_TWO, line 372
  ⟨['\u335b'], ['3', '点']⟩, -- IDEOGRAPHIC_TELEGRAPH_SYMBOL_FOR_HOUR_THREE, line 374
  ⟨['\u335c'], ['4', '点']⟩, -- IDEOGRAPHIC_TELEGRAPH_SYMBOL_FOR_HOUR_FOUR, line 376
  ⟨['\u335d'], ['5', '点']⟩, -- IDEOGRAPHIC_TELEGRAPH_SYMBOL_FOR_HOUR_FIVE, line 378
  ⟨['\u335e'], ['6', '点']⟩, -- IDEOGRAPHIC_TELEGRAPH_SYMBOL_FOR_HOUR_SIX, line 380
  ⟨['\u335f'], ['7', '点']⟩, -- IDEOGRAPHIC_TELEGRAPH_SYMBOL_FOR_HOUR_SEVEN, line 382
  ⟨['\u3360'], ['8', '点']⟩, -- IDEOGRAPHIC_TELEGRAPH_SYMBOL_FOR_HOUR_EIGHT, line 384
  ⟨['\u3361'], ['9', '点']⟩, -- IDEOGRAPHIC_TELEGRAPH_SYMBOL_FOR_HOUR_NINE, line 386
  ⟨['\u3362'], ['1', '0', '点']⟩, -- IDEOGRAPHIC_TELEGRAPH_SYMBOL_FOR_HOUR_TEN, line 388
  ⟨['\u3363'], ['1', '1', '点']⟩, -- IDEOGRAPHIC_TELEGRAPH_SYMBOL_FOR_HOUR_ELEVEN, line 390
  ⟨['\u3364'], ['1', '2', '点']⟩, -- IDEOGRAPHIC_TELEGRAPH_SYMBOL_FOR_HOUR_TWELVE, line 392
  ⟨['\u3365'], ['1', '3', '点']⟩, -- IDEOGRAPHIC_TELEGRAPH_SYMBOL_FOR_HOUR_THIRTEEN, line 394
  ⟨['\u3366'], ['1', '4', '点']⟩, -- IDEOGRAPHIC_TELEGRAPH_SYMBOL_FOR_HOUR_FOURTEEN, line 396
  ⟨['\u3367'], ['1', '5', '点']⟩, -- IDEOGRAPHIC_TELEGRAPH_SYMBOL_FOR_HOUR_FIFTEEN, line 398
  ⟨['\u3368'], ['1', '6', '点']⟩, -- IDEOGRAPHIC_TELEGRAPH_SYMBOL_FOR_HOUR_SIXTEEN, line 400
  ⟨['\u3369'], ['1', '7', '点']⟩, -- IDEOGRAPHIC_TELEGRAPH_SYMBOL_FOR_HOUR_SEVENTEEN, line 402
  ⟨['\u336a'], ['1', '8', '点']⟩, -- IDEOGRAPHIC_TELEGRAPH_SYMBOL_FOR_HOUR_EIGHTEEN, line 404
  ⟨['\u336b'], ['1', '9', '点']⟩, -- IDEOGRAPHIC_TELEGRAPH_SYMBOL_FOR_HOUR_NINETEEN, line 406
  ⟨['\u336c'], ['2', '0', '点']⟩, -- IDEOGRAPHIC_TELEGRAPH_SYMBOL_FOR_HOUR_TWENTY, line 408
  ⟨['\u336d'], ['2', '1', '点']⟩, -- IDEOGRAPHIC_TELEGRAPH_SYMBOL_FOR_HOUR_TWENTY_ONE, line 410
  ⟨['\u336e'], ['2', '2', '点']⟩, -- IDEOGRAPHIC_TELEGRAPH_SYMBOL_FOR_HOUR_TWENTY_TWO, line 412
  ⟨['\u336f'], ['2', '3', '点']⟩, -- IDEOGRAPHIC_TELEGRAPH_SYMBOL_FOR_HOUR_TWENTY_THREE, line 414
  ⟨['\u3370'], ['2', '4', '点']⟩, -- IDEOGRAPHIC_TELEGRAPH_SYMBOL_FOR_HOUR_TWENTY_FOUR, line 416
  ⟨['\u3371'], ['h', 'P', 'a']⟩, -- SQUARE_HPA, line 418
  ⟨['\u3372'], ['d', 'a']⟩, -- SQUARE_DA, line 419
  ⟨['\u3373'], ['A', 'U']⟩, -- SQUARE_AU, line 420
  ⟨['\u3374'], ['b', 'a', 'r']⟩, -- SQUARE_BAR, line 421
  ⟨['\u3375'], ['o', 'V']⟩, -- SQUARE_OV, line 422
  ⟨['\u3376'], ['p', 'c']⟩, -- SQUARE_PC, line 423
  ⟨['\u3377'], ['d', 'm']⟩, -- SQUARE_DM, line 424
  ⟨['\u3378'], ['d', 'm', '2']⟩, -- SQUARE_DM_SQUARED, line 425
  ⟨['\u3379'], ['d', 'm', '3']⟩, -- SQUARE_DM_CUBED, line 426
  ⟨['\u337a'], ['I', 'U']⟩, -- SQUARE_IU, line 427
  ⟨['\u337b'], ['平', '成']⟩, -- SQUARE_ERA_NAME_HEISEI, line 428
  ⟨['\u337c'], ['昭', '和']⟩, -- SQUARE_ERA_NAME_SYOUWA, line 429
  ⟨['\u337d'], ['大', '正']⟩, -- SQUARE_ERA_NAME_TAISYOU, line 430
  ⟨['\u337e'], ['明', '治']⟩, -- SQUARE_ERA_NAME_MEIZI, line 431
  ⟨['\u337f'], ['株', '式', '会', '社']⟩, -- SQUARE_CORPORATION, line 432
  ⟨['\u3380'], ['p', 'A']⟩, -- SQUARE_PA_AMPS, line 433
  ⟨['\u3381'], ['n', 'A']⟩, -- SQUARE_NA, line 434
  ⟨['\u3382'], ['µ', 'A']⟩, -- SQUARE_MU_A, line 435
  ⟨['\u3383'], ['m', 'A']⟩, -- SQUARE_MA, line 436
  ⟨['\u3384'], ['k', 'A']⟩, -- SQUARE_KA, line 437
  ⟨['\u3385'], ['K', 'B']⟩, -- SQUARE_KB, line 438
  ⟨['\u3386'], ['M', 'B']⟩, -- SQUARE_MB, line 439
  ⟨['\u3387'], ['G', 'B']⟩, -- SQUARE_GB, line 440
  ⟨['\u3388'], ['c', 'a', 'l']⟩, -- SQUARE_CAL, line 441
  ⟨['\u3389'], ['k', 'c', 'a', 'l']⟩, -- SQUARE_KCAL, line 442
  ⟨['\u338a'], ['p', 'F']⟩, -- SQUARE_PF, line 443
  ⟨['\u338b'], ['n', 'F']⟩, -- SQUARE_NF, line 444
  ⟨['\u338c'], ['µ', 'F']⟩, -- SQUARE_MU_F, line 445
  ⟨['\u338d'], ['µ', 'g']⟩, -- SQUARE_MU_G, line 446
  ⟨['\u338e'], ['m', 'g']⟩, -- SQUARE_MG, line 447
  ⟨['\u338f'], ['k', 'g']⟩, -- SQUARE_KG, line 448
  ⟨['\u3390'], ['H', 'z']⟩, -- SQUARE_HZ, line 449
  ⟨['\u3391'], ['k', 'H', 'z']⟩, -- SQUARE_KHZ, line 450
  ⟨['\u3392'], ['M', 'H', 'z']⟩, -- SQUARE_MHZ, line 451
  ⟨['\u3393'], ['G', 'H', 'z']⟩, -- SQUARE_GHZ, line 452
  ⟨['\u3394'], ['T', 'H', 'z']⟩, -- SQUARE_THZ, line 453
  ⟨['\u3395'], ['µ', 'l']⟩, -- SQUARE_MU_L, line 454
  ⟨['\u3396'], ['m', 'l']⟩, -- SQUARE_ML, line 455
  ⟨['\u3397'], ['d', 'l']⟩, -- SQUARE_DL, line 456
  ⟨['\u3398'], ['k', 'l']⟩, -- SQUARE_KL, line 457
  ⟨['\u3399'], ['f', 'm']⟩, -- SQUARE_FM, line 458
  ⟨['\u339a'], ['n', 'm']⟩, -- SQUARE_NM, line 459
  ⟨['\u339b'], ['µ', 'm']⟩, -- SQUARE_MU_M, line 460
  ⟨['\u339c'], ['m', 'm']⟩, -- SQUARE_MM, line 461
  ⟨['\u339d'], ['c', 'm']⟩, -- SQUARE_CM, line 462
  ⟨['\u339e'], ['k', 'm']⟩, -- SQUARE_KM, line 463
  ⟨['\u339f'], ['m', 'm']⟩, -- SQUARE_MM_SQUARED, line 464
  ⟨['\u33a0'], ['c', 'm', '2']⟩, -- SQUARE_CM_SQUARED, line 465
  ⟨['\u33a1'], ['m', '2']⟩, -- SQUARE_M_SQUARED, line 466
  ⟨['\u33a2'], ['k', 'm', '2']⟩, -- SQUARE_KM_SQUARED, line 467
  ⟨['\u33a3'], ['m', 'm', '3']⟩, -- SQUARE_MM_CUBED, line 468
  ⟨['\u33a3'], ['c', 'm', '3']⟩, -- SQUARE_CM_CUBED, line 469
  ⟨['\u33a5'], ['m', '3']⟩, -- SQUARE_M_CUBED, line 470
  ⟨['\u33a6'], ['k', 'm', '3']⟩, -- SQUARE_KM_CUBED, line 471
  ⟨['\u33a7'], ['m', '/', 's']⟩, -- SQUARE_M_OVER_S, line 472
  ⟨['\u33a8'], ['m', '/', 's', '2']⟩, -- SQUARE_M_OVER_S_SQUARED, line 473
  ⟨['\u33a9'], ['P', 'a']⟩, -- SQUARE_PA, line 474
  ⟨['\u33aa'], ['k', 'P', 'a']⟩, -- SQUARE_KPA, line 475
  ⟨['\u33ab'], ['M', 'P', 'a']⟩, -- SQUARE_MPA, line 476
  ⟨['\u33ac'], ['G', 'P', 'a']⟩, -- SQUARE_GPA, line 477
  ⟨['\u33ad'], ['r', 'a', 'd']⟩, -- SQUARE_RAD, line 478
  ⟨['\u33ae'], ['r', 'a', 'd', '/', 's']⟩, -- SQUARE_RAD_OVER_S, line 479
  ⟨['\u33af'], ['r', 'a', 'd', '/', 's', '2']⟩, -- SQUARE_RAD_OVER_S_SQUARED, line 480
  ⟨['\u33b0'], ['p', 's']⟩, -- SQUARE_PS, line 482
  ⟨['\u33b1'], ['n', 's']⟩, -- SQUARE_NS, line 483
  ⟨['\u33b2'], ['µ', 's']⟩, -- SQUARE_MU_S, line 484
  ⟨['\u33b3'], ['m', 's']⟩, -- SQUARE_MS, line 485
  ⟨['\u33b4'], ['p', 'V']⟩, -- SQUARE_PV, line 486
  ⟨['\u33b5'], ['n', 'V']⟩, -- SQUARE_NV, line 487
  ⟨['\u33b6'], ['µ', 'V']⟩, -- SQUARE_MU_V, line 488
  ⟨['\u33b7'], ['m', 'V']⟩, -- SQUARE_MV, line 489
  ⟨['\u33b8'], ['k', 'V']⟩, -- SQUARE_KV, line 490
  ⟨['\u33b9'], ['M', 'V']⟩, -- SQUARE_MV_MEGA, line 491
  ⟨['\u33ba'], ['p', 'W']⟩, -- SQUARE_PW, line 492
  ⟨['\u33bb'], ['n', 'W']⟩, -- SQUARE_NW, line 493
  ⟨['\u33bc'], ['µ', 'W']⟩, -- SQUARE_MU_W, line 494
  ⟨['\u33bd'], ['m', 'W']⟩, -- SQUARE_MW, line 495
  ⟨['\u33be'], ['k', 'W']⟩, -- SQUARE_KW, line 496
  ⟨['\u33bf'], ['M', 'W']⟩, -- SQUARE_MW_MEGA, line 497
  ⟨['\u33c0'], ['k', 'Ω']⟩, -- SQUARE_K_OHM, line 498
  ⟨['\u33c1'], ['M', 'Ω']⟩, -- SQUARE_M_OHM, line 499
  ⟨['\u33c2'], ['a', '.', 'm', '.']⟩, -- SQUARE_AM, line 500
  ⟨['\u33c3'], ['B', 'q']⟩, -- SQUARE_BQ, line 501
  ⟨['\u33c4'], ['c', 'c']⟩, -- SQUARE_CC, line 502
  ⟨['\u33c5'], ['c', 'd']⟩, -- SQUARE_CD, line 503
  ⟨['\u33c6'], ['C', '/', 'k', 'g']⟩, -- SQUARE_C_OVER_KG, line 504
  ⟨['\u33c7'], ['C', 'o', '.']⟩, -- SQUARE_CO, line 505
  ⟨['\u33c8'], ['d', 'B']⟩, -- SQUARE_DB, line 506
  ⟨['\u33c9'], ['G', 'y']⟩, -- SQUARE_GY, line 507
  ⟨['\u33ca'], ['h', 'a']⟩, -- SQUARE_HA, line 508
  ⟨['\u33cb'], ['H', 'P']⟩, -- SQUARE_HP, line 509
  ⟨['\u33cc'], ['i', 'n']⟩, -- SQUARE_IN, line 510
  ⟨['\u33cd'], ['K', '.']⟩, -- SQUARE_KK, line 511
  ⟨['\u33ce'], ['K', 'M']⟩, -- SQUARE_KM_CAPITAL, line 512
  ⟨['\u33cf'], ['k', 't']⟩, -- SQUARE_KT, line 513
  ⟨['\u33d0'], ['l', 'm']⟩, -- SQUARE_LM, line 514
  ⟨['\u33d1'], ['l', 'n']⟩, -- SQUARE_LN, line 515
  ⟨['\u33d2'], ['l', 'o', 'g']⟩, -- SQUARE_LOG, line 516
  ⟨['\u33d3'], ['l', 'x']⟩, -- SQUARE_LX, line 517
  ⟨['\u33d4'], ['m', 'b']⟩, -- SQUARE_MB_SMALL, line 518
  ⟨['\u33d5'], ['m', 'i', 'l']⟩, -- SQUARE_MIL, line 519
  ⟨['\u33d6'], ['m', 'o', 'l']⟩, -- SQUARE_MOL, line 520
  ⟨['\u33d7'], ['p', 'H']⟩, -- SQUARE_PH, line 521
  ⟨['\u33d8'], ['p', '.', 'm', '.']⟩, -- SQUARE_PM, line 522
  ⟨['\u33d9'], ['p', 'p', 'm']⟩, -- SQUARE_PPM, line 523
  ⟨['\u33da'], ['P', 'R']⟩, -- SQUARE_PR, line 524
  ⟨['\u33db'], ['s', 'r']⟩, -- SQUARE_SR, line 525
  ⟨['\u33dc'], ['S', 'v']⟩, -- SQUARE_SV, line 526
  ⟨['\u33dd'], ['W', 'b']⟩, -- SQUARE_WB, line 527
  ⟨['\u33de'], ['V', '/', 'm']⟩, -- SQUARE_V_OVER_M, line 528
  ⟨['\u33df'], ['A', '/', 'm']⟩, -- SQUARE_A_OVER_M, line 529
  ⟨['\u33e0'], ['1', '日']⟩, -- IDEOGRAPHIC_TELEGRAPH_SYMBOL_FOR_DAY_ONE, line 530
  ⟨['\u33e1'], ['2', '日']⟩, -- IDEOGRAPHIC_TELEGRAPH_SYMBOL_FOR_DAY_TWO, line 532
  ⟨['\u33e2'], ['3', '日']⟩, -- IDEOGRAPHIC_TELEGRAPH_SYMBOL_FOR_DAY_THREE, line 534
  ⟨['\u33e3'], ['4', '日']⟩, -- IDEOGRAPHIC_TELEGRAPH_SYMBOL_FOR_DAY_FOUR, line 536
  ⟨['\u33e4'], ['5', '日']⟩, -- IDEOGRAPHIC_TELEGRAPH_SYMBOL_FOR_DAY_FIVE, line 538
  ⟨['\u33e5'], ['6', '日']⟩, -- IDEOGRAPHIC_TELEGRAPH_SYMBOL_FOR_DAY_SIX, line 540
  ⟨['\u33e6'], ['7', '日']⟩, -- IDEOGRAPHIC_TELEGRAPH_SYMBOL_FOR_DAY_SEVEN, line 542
  ⟨['\u33e7'], ['8', '日']⟩, -- IDEOGRAPHIC_TELEGRAPH_SYMBOL_FOR_DAY_EIGHT, line 544
  ⟨['\u33e8'], ['9', '日']⟩, -- IDEOGRAPHIC_TELEGRAPH_SYMBOL_FOR_DAY_NINE, line 546
  ⟨['\u33e9'], ['1', '0', '日']⟩, -- IDEOGRAPHIC_TELEGRAPH_SYMBOL_FOR_DAY_TEN, line 548
  ⟨['\u33ea'], ['1', '1', '日']⟩, -- IDEOGRAPHIC_TELEGRAPH_SYMBOL_FOR_DAY_ELEVEN, line 550
  ⟨['\u33eb'], ['1', '2', '日']⟩, -- IDEOGRAPHIC_TELEGRAPH_SYMBOL_FOR_DAY_TWELVE, line 552
  ⟨['\u33ec'], ['1', '3', '日']⟩, -- IDEOGRAPHIC_TELEGRAPH_SYMBOL_FOR_DAY_THIRTEEN, line 554
  ⟨['\u33ed'], ['1', '4', '日']⟩, -- IDEOGRAPHIC_TELEGRAPH_SYMBOL_FOR_DAY_FOURTEEN, line 556
  ⟨['\u33ee'], ['1', '5', '日']⟩, -- IDEOGRAPHIC_TELEGRAPH_SYMBOL_FOR_DAY_FIFTEEN, line 558
  ⟨['\u33ef'], ['1', '6', '日']⟩, -- IDEOGRAPHIC_TELEGRAPH_SYMBOL_FOR_DAY_SIXTEEN, line 560
  ⟨['\u33f0'], ['1', '7', '日']⟩, -- IDEOGRAPHIC_TELEGRAPH_SYMBOL_FOR_DAY_SEVENTEEN, line 562
  ⟨['\u33f1'], ['1', '8', '日']⟩, -- IDEOGRAPHIC_TELEGRAPH_SYMBOL_FOR_DAY_EIGHTEEN, line 564
  ⟨['\u33f2'], ['1', '9', '日']⟩, -- IDEOGRAPHIC_TELEGRAPH_SYMBOL_FOR_DAY_NINETEEN, line 566
  ⟨['\u33f3'], ['2', '0', '日']⟩, -- IDEOGRAPHIC_TELEGRAPH_SYMBOL_FOR_DAY_TWENTY, line 568
  ⟨['\u33f4'], ['2', '1', '日']⟩, -- IDEOGRAPHIC_TELEGRAPH_SYMBOL_FOR_DAY_TWENTY_ONE, line 570
  ⟨['\u33f5'], ['2', '2', '日']⟩, -- IDEOGRAPHIC_TELEGRAPH_SYMBOL_FOR_DAY_TWENTY_TWO, line 572
  ⟨['\u33f6'], ['2', '3', '日']⟩, -- IDEOGRAPHIC_TELEGRAPH_SYMBOL_FOR_DAY_TWENTY_THREE, line 574
  ⟨['\u33f7'], ['2', '4', '日']⟩, -- IDEOGRAPHIC_TELEGRAPH_SYMBOL_FOR_DAY_TWENTY_FOUR, line 576
  ⟨['\u33f8'], ['2', '5', '日']⟩, -- IDEOGRAPHIC_TELEGRAPH_SYMBOL_FOR_DAY_TWENTY_FIVE, line 578
  ⟨['\u33f9'], ['2', '6', '日']⟩, -- IDEOGRAPHIC_TELEGRAPH_SYMBOL_FOR_DAY_TWENTY_SIX, line 580
  ⟨['\u33fa'], ['2', '7', '日']⟩, -- IDEOGRAPHIC_TELEGRAPH_SYMBOL_FOR_DAY_TWENTY_SEVEN, line 582
  ⟨['\u33fb'], ['2', '8', '日']⟩, -- IDEOGRAPHIC_TELEGRAPH_SYMBOL_FOR_DAY_TWENTY_EIGHT, line 584
  ⟨['\u33fc'], ['2', '9', '日']⟩, -- IDEOGRAPHIC_TELEGRAPH_SYMBOL_FOR_DAY_TWENTY_NINE, line 586
  ⟨['\u33fd'], ['3', '0', '日']⟩, -- IDEOGRAPHIC_TELEGRAPH_SYMBOL_FOR_DAY_THIRTY, line 588
  ⟨['\u33fe'], ['3', '1', '日']⟩, -- IDEOGRAPHIC_TELEGRAPH_SYMBOL_FOR_DAY_THIRTY_ONE, line 590
  ⟨['\u33ff'], ['g', 'a', 'l']⟩  -- SQUARE_GAL, line 592
]

/-- `/repo/src/characters_set/cjk_compatibilities.rs:7-265`, `CjkCompatibilities::items`. -/
def cjkItems (σ : Oracle) : List Item := sumChain σ cjkConsts

/-- `/repo/src/characters_set/punctuations.rs:86`, `Punctuations::EQUAL_SIGN`. -/
def equalSign : List Item := linearItems ['＝'] ['=']

/-- `/repo/src/characters_set.rs:23-28`, `All::items`:
`(DIGITS + &PUNCTUATIONS + &ALPHABETS + &KANAS).items()`. -/
def allItems (σ : Oracle) : List Item :=
  corrAdd σ (corrAdd σ (corrAdd σ (digitsItems σ) (punctuationsItems σ)) (alphabetsItems σ))
    (kanasItems σ)

end Chanoma

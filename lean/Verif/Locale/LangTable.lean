/-
The tables of include/stdex/langid.hpp, as they are written there.
-/
namespace Verif.Locale

/-- `languages` of `langid_from_rfc1766`, langid.hpp 99-535. -/
def namesTable : List (String × Nat) := [
  ("af-ZA", 0x436), ("af", 0x36), ("am-ET", 0x45e), ("am", 0x5e), ("ar-AE", 0x3801), ("ar-BH", 0x3c01), ("ar-DZ", 0x1401), ("ar-EG", 0xc01), ("ar-IQ", 0x801), ("ar-JO", 0x2c01), ("ar-KW", 0x3401),
  ("ar-LB", 0x3001), ("ar-LY", 0x1001), ("ar-MA", 0x1801), ("ar-OM", 0x2001), ("ar-QA", 0x4001), ("ar-SA", 0x401), ("ar-SY", 0x2801), ("ar-TN", 0x1c01), ("ar-YE", 0x2401), ("ar", 0x1),
  ("arn-CL", 0x47a), ("arn", 0x7a), ("as-IN", 0x44d), ("as", 0x4d), ("az-Cyrl-AZ", 0x742c), ("az-Cyrl-AZ", 0x82c), ("az-Latn-AZ", 0x42c), ("az-Latn-AZ", 0x782c), ("az", 0x2c), ("ba-RU", 0x46d),
  ("ba", 0x6d), ("be-BY", 0x423), ("be", 0x23), ("bg-BG", 0x402), ("bg", 0x2), ("bin-NG", 0x466), ("bin", 0x66), ("bn-BD", 0x845), ("bn-IN", 0x445), ("bn", 0x45), ("bo-CN", 0x451), ("bo", 0x51),
  ("br-FR", 0x47e), ("br", 0x7e), ("bs-Cyrl-BA", 0x201a), ("bs-Cyrl-BA", 0x641a), ("bs-Latn-BA", 0x141a), ("bs-Latn-BA", 0x681a), ("bs-Latn-BA", 0x781a), ("ca-ES-valencia", 0x803), ("ca-ES", 0x403),
  ("ca", 0x3), ("chr-Cher-US", 0x45c), ("chr-Cher-US", 0x7c5c), ("chr", 0x5c), ("co-FR", 0x483), ("co", 0x83), ("cs-CZ", 0x405), ("cs", 0x5), ("cy-GB", 0x452), ("cy", 0x52), ("da-DK", 0x406),
  ("da", 0x6), ("de-AT", 0xc07), ("de-CH", 0x807), ("de-DE", 0x407), ("de-LI", 0x1407), ("de-LU", 0x1007), ("de", 0x7), ("dsb-DE", 0x7c2e), ("dsb-DE", 0x82e), ("dv-MV", 0x465), ("dv", 0x65),
  ("dz-BT", 0xc51), ("el-GR", 0x408), ("el", 0x8), ("en-029", 0x2409), ("en-AE", 0x4c09), ("en-AU", 0xc09), ("en-BZ", 0x2809), ("en-CA", 0x1009), ("en-GB", 0x809), ("en-HK", 0x3c09), ("en-ID", 0x3809),
  ("en-IE", 0x1809), ("en-IN", 0x4009), ("en-JM", 0x2009), ("en-MY", 0x4409), ("en-NZ", 0x1409), ("en-PH", 0x3409), ("en-SG", 0x4809), ("en-TT", 0x2c09), ("en-US", 0x409), ("en-ZA", 0x1c09),
  ("en-ZW", 0x3009), ("en", 0x9), ("es-419", 0x580a), ("es-AR", 0x2c0a), ("es-BO", 0x400a), ("es-CL", 0x340a), ("es-CO", 0x240a), ("es-CR", 0x140a), ("es-CU", 0x5c0a), ("es-DO", 0x1c0a),
  ("es-EC", 0x300a), ("es-ES_tradnl", 0x40a), ("es-ES", 0xc0a), ("es-GT", 0x100a), ("es-HN", 0x480a), ("es-MX", 0x80a), ("es-NI", 0x4c0a), ("es-PA", 0x180a), ("es-PE", 0x280a), ("es-PR", 0x500a),
  ("es-PY", 0x3c0a), ("es-SV", 0x440a), ("es-US", 0x540a), ("es-UY", 0x380a), ("es-VE", 0x200a), ("es", 0xa), ("et-EE", 0x425), ("et", 0x25), ("eu-ES", 0x42d), ("eu", 0x2d), ("fa-AF", 0x48c),
  ("fa-IR", 0x429), ("fa", 0x29), ("fa", 0x8c), ("ff-Latn-NG", 0x467), ("ff-Latn-SN", 0x7c67), ("ff-Latn-SN", 0x867), ("ff", 0x67), ("fi-FI", 0x40b), ("fi", 0xb), ("fil-PH", 0x464), ("fil", 0x64),
  ("fo-FO", 0x438), ("fo", 0x38), ("fr-029", 0x1c0c), ("fr-BE", 0x80c), ("fr-CA", 0xc0c), ("fr-CD", 0x240c), ("fr-CH", 0x100c), ("fr-CI", 0x300c), ("fr-CM", 0x2c0c), ("fr-FR", 0x40c),
  ("fr-HT", 0x3c0c), ("fr-LU", 0x140c), ("fr-MA", 0x380c), ("fr-MC", 0x180c), ("fr-ML", 0x340c), ("fr-RE", 0x200c), ("fr-SN", 0x280c), ("fr", 0xc), ("fy-NL", 0x462), ("fy", 0x62), ("ga-IE", 0x83c),
  ("ga", 0x3c), ("gd-GB", 0x491), ("gd", 0x91), ("gl-ES", 0x456), ("gl", 0x56), ("gn-PY", 0x474), ("gn", 0x74), ("gsw-FR", 0x484), ("gsw", 0x84), ("gu-IN", 0x447), ("gu", 0x47), ("ha-Latn-NG", 0x468),
  ("ha-Latn-NG", 0x7c68), ("ha", 0x68), ("haw-US", 0x475), ("haw", 0x75), ("he-IL", 0x40d), ("he", 0xd), ("hi-IN", 0x439), ("hi", 0x39), ("hr-BA", 0x101a), ("hr-HR", 0x41a), ("hr", 0x1a),
  ("hsb-DE", 0x42e), ("hsb", 0x2e), ("hu-HU", 0x40e), ("hu", 0xe), ("hy-AM", 0x42b), ("hy", 0x2b), ("ibb-NG", 0x469), ("ibb", 0x69), ("id-ID", 0x421), ("id", 0x21), ("ig-NG", 0x470), ("ig", 0x70),
  ("ii-CN", 0x478), ("ii", 0x78), ("is-IS", 0x40f), ("is", 0xf), ("it-CH", 0x810), ("it-IT", 0x410), ("it", 0x10), ("iu-Cans-CA", 0x45d), ("iu-Cans-CA", 0x785d), ("iu-Latn-CA", 0x7c5d),
  ("iu-Latn-CA", 0x85d), ("iu", 0x5d), ("ja-JP", 0x411), ("ja", 0x11), ("ka-GE", 0x437), ("ka", 0x37), ("kk-KZ", 0x43f), ("kk", 0x3f), ("kl-GL", 0x46f), ("kl", 0x6f), ("km-KH", 0x453), ("km", 0x53),
  ("kn-IN", 0x44b), ("kn", 0x4b), ("ko-KR", 0x412), ("ko", 0x12), ("kok-IN", 0x457), ("kok", 0x57), ("kr-Latn-NG", 0x471), ("kr", 0x71), ("ks-Arab-IN", 0x460), ("ks-Deva-IN", 0x860), ("ks", 0x60),
  ("ku-Arab-IQ", 0x492), ("ku-Arab-IQ", 0x7c92), ("ku", 0x92), ("ky-KG", 0x440), ("ky", 0x40), ("la-VA", 0x476), ("la", 0x76), ("lb-LU", 0x46e), ("lb", 0x6e), ("lo-LA", 0x454), ("lo", 0x54),
  ("lt-LT", 0x427), ("lt", 0x27), ("lv-LV", 0x426), ("lv", 0x26), ("mi-NZ", 0x481), ("mi", 0x81), ("mk-MK", 0x42f), ("mk", 0x2f), ("ml-IN", 0x44c), ("ml", 0x4c), ("mn-MN", 0x450), ("mn-MN", 0x7850),
  ("mn-Mong-CN", 0x7c50), ("mn-Mong-CN", 0x850), ("mn-Mong-MN", 0xc50), ("mn", 0x50), ("mni-IN", 0x458), ("mni", 0x58), ("moh-CA", 0x47c), ("moh", 0x7c), ("mr-IN", 0x44e), ("mr", 0x4e),
  ("ms-BN", 0x83e), ("ms-MY", 0x43e), ("ms", 0x3e), ("mt-MT", 0x43a), ("mt", 0x3a), ("my-MM", 0x455), ("my", 0x55), ("nb-NO", 0x414), ("nb-NO", 0x7c14), ("nb", 0x14), ("ne-IN", 0x861),
  ("ne-NP", 0x461), ("ne", 0x61), ("nl-BE", 0x813), ("nl-NL", 0x413), ("nl", 0x13), ("nn-NO", 0x7814), ("nn-NO", 0x814), ("nso-ZA", 0x46c), ("nso", 0x6c), ("oc-FR", 0x482), ("oc", 0x82),
  ("om-ET", 0x472), ("om", 0x72), ("or-IN", 0x448), ("or", 0x48), ("pa-Arab-PK", 0x7c46), ("pa-Arab-PK", 0x846), ("pa-IN", 0x446), ("pa", 0x46), ("pap-029", 0x479), ("pap", 0x79), ("pl-PL", 0x415),
  ("pl", 0x15), ("ps-AF", 0x463), ("ps", 0x63), ("pt-BR", 0x416), ("pt-PT", 0x816), ("pt", 0x16), ("qps-Latn-x-sh", 0x901), ("qps-ploc", 0x501), ("qps-ploca", 0x5fe), ("qps-plocm", 0x9ff),
  ("quc-Latn-GT", 0x486), ("quc-Latn-GT", 0x7c86), ("quc", 0x86), ("quz-BO", 0x46b), ("quz-EC", 0x86b), ("quz-PE", 0xc6b), ("quz", 0x6b), ("rm-CH", 0x417), ("rm", 0x17), ("ro-MD", 0x818),
  ("ro-RO", 0x418), ("ro", 0x18), ("ru-MD", 0x819), ("ru-RU", 0x419), ("ru", 0x19), ("rw-RW", 0x487), ("rw", 0x87), ("sa-IN", 0x44f), ("sa", 0x4f), ("sah-RU", 0x485), ("sah", 0x85),
  ("sd-Arab-PK", 0x7c59), ("sd-Arab-PK", 0x859), ("sd-Deva-IN", 0x459), ("sd", 0x59), ("se-FI", 0xc3b), ("se-NO", 0x43b), ("se-SE", 0x83b), ("se", 0x3b), ("si-LK", 0x45b), ("si", 0x5b),
  ("sk-SK", 0x41b), ("sk", 0x1b), ("sl-SI", 0x424), ("sl", 0x24), ("sma-NO", 0x183b), ("sma-SE", 0x1c3b), ("sma-SE", 0x783b), ("smj-NO", 0x103b), ("smj-SE", 0x143b), ("smj-SE", 0x7c3b),
  ("smn-FI", 0x243b), ("smn-FI", 0x703b), ("sms-FI", 0x203b), ("sms-FI", 0x743b), ("so-SO", 0x477), ("so", 0x77), ("sq-AL", 0x41c), ("sq", 0x1c), ("sr-Cyrl-BA", 0x1c1a), ("sr-Cyrl-CS", 0xc1a),
  ("sr-Cyrl-ME", 0x301a), ("sr-Cyrl-RS", 0x281a), ("sr-Cyrl-RS", 0x6c1a), ("sr-Latn-BA", 0x181a), ("sr-Latn-CS", 0x81a), ("sr-Latn-ME", 0x2c1a), ("sr-Latn-RS", 0x241a), ("sr-Latn-RS", 0x701a),
  ("sr-Latn-RS", 0x7c1a), ("st-ZA", 0x430), ("st", 0x30), ("sv-FI", 0x81d), ("sv-SE", 0x41d), ("sv", 0x1d), ("sw-KE", 0x441), ("sw", 0x41), ("syr-SY", 0x45a), ("syr", 0x5a), ("ta-IN", 0x449),
  ("ta-LK", 0x849), ("ta", 0x49), ("te-IN", 0x44a), ("te", 0x4a), ("tg-Cyrl-TJ", 0x428), ("tg-Cyrl-TJ", 0x7c28), ("tg", 0x28), ("th-TH", 0x41e), ("th", 0x1e), ("ti-ER", 0x873), ("ti-ET", 0x473),
  ("ti", 0x73), ("tk-TM", 0x442), ("tk", 0x42), ("tn-BW", 0x832), ("tn-ZA", 0x432), ("tn", 0x32), ("tr-TR", 0x41f), ("tr", 0x1f), ("ts-ZA", 0x431), ("ts", 0x31), ("tt-RU", 0x444), ("tt", 0x44),
  ("tzm-Arab-MA", 0x45f), ("tzm-Latn-DZ", 0x7c5f), ("tzm-Latn-DZ", 0x85f), ("tzm-Tfng-MA", 0x105f), ("tzm-Tfng-MA", 0x785f), ("tzm", 0x5f), ("ug-CN", 0x480), ("ug", 0x80), ("uk-UA", 0x422),
  ("uk", 0x22), ("ur-IN", 0x820), ("ur-PK", 0x420), ("ur", 0x20), ("uz-Cyrl-UZ", 0x7843), ("uz-Cyrl-UZ", 0x843), ("uz-Latn-UZ", 0x443), ("uz-Latn-UZ", 0x7c43), ("uz", 0x43), ("ve-ZA", 0x433),
  ("ve", 0x33), ("vi-VN", 0x42a), ("vi", 0x2a), ("wo-SN", 0x488), ("wo", 0x88), ("xh-ZA", 0x434), ("xh", 0x34), ("yi-001", 0x43d), ("yi", 0x3d), ("yo-NG", 0x46a), ("yo", 0x6a), ("zh-CN", 0x7804),
  ("zh-CN", 0x804), ("zh-HK", 0x7c04), ("zh-HK", 0xc04), ("zh-MO", 0x1404), ("zh-SG", 0x1004), ("zh-TW", 0x404), ("zh", 0x4), ("zu-ZA", 0x435), ("zu", 0x35)]

/-- `languages` of `rfc1766_from_langid`, langid.hpp 551-987. -/
def codesTable : List (Nat × String) := [
  (0x1, "ar"), (0x401, "ar-SA"), (0x801, "ar-IQ"), (0xc01, "ar-EG"), (0x1001, "ar-LY"), (0x1401, "ar-DZ"), (0x1801, "ar-MA"), (0x1c01, "ar-TN"), (0x2001, "ar-OM"), (0x2401, "ar-YE"), (0x2801, "ar-SY"),
  (0x2c01, "ar-JO"), (0x3001, "ar-LB"), (0x3401, "ar-KW"), (0x3801, "ar-AE"), (0x3c01, "ar-BH"), (0x4001, "ar-QA"), (0x2, "bg"), (0x402, "bg-BG"), (0x3, "ca"), (0x403, "ca-ES"),
  (0x803, "ca-ES-valencia"), (0x4, "zh"), (0x404, "zh-TW"), (0x804, "zh-CN"), (0xc04, "zh-HK"), (0x1004, "zh-SG"), (0x1404, "zh-MO"), (0x7804, "zh-CN"), (0x7c04, "zh-HK"), (0x5, "cs"),
  (0x405, "cs-CZ"), (0x6, "da"), (0x406, "da-DK"), (0x7, "de"), (0x407, "de-DE"), (0x807, "de-CH"), (0xc07, "de-AT"), (0x1007, "de-LU"), (0x1407, "de-LI"), (0x8, "el"), (0x408, "el-GR"), (0x9, "en"),
  (0x409, "en-US"), (0x809, "en-GB"), (0xc09, "en-AU"), (0x1009, "en-CA"), (0x1409, "en-NZ"), (0x1809, "en-IE"), (0x1c09, "en-ZA"), (0x2009, "en-JM"), (0x2409, "en-029"), (0x2809, "en-BZ"),
  (0x2c09, "en-TT"), (0x3009, "en-ZW"), (0x3409, "en-PH"), (0x3809, "en-ID"), (0x3c09, "en-HK"), (0x4009, "en-IN"), (0x4409, "en-MY"), (0x4809, "en-SG"), (0x4c09, "en-AE"), (0xa, "es"),
  (0x40a, "es-ES_tradnl"), (0x80a, "es-MX"), (0xc0a, "es-ES"), (0x100a, "es-GT"), (0x140a, "es-CR"), (0x180a, "es-PA"), (0x1c0a, "es-DO"), (0x200a, "es-VE"), (0x240a, "es-CO"), (0x280a, "es-PE"),
  (0x2c0a, "es-AR"), (0x300a, "es-EC"), (0x340a, "es-CL"), (0x380a, "es-UY"), (0x3c0a, "es-PY"), (0x400a, "es-BO"), (0x440a, "es-SV"), (0x480a, "es-HN"), (0x4c0a, "es-NI"), (0x500a, "es-PR"),
  (0x540a, "es-US"), (0x580a, "es-419"), (0x5c0a, "es-CU"), (0xb, "fi"), (0x40b, "fi-FI"), (0xc, "fr"), (0x40c, "fr-FR"), (0x80c, "fr-BE"), (0xc0c, "fr-CA"), (0x100c, "fr-CH"), (0x140c, "fr-LU"),
  (0x180c, "fr-MC"), (0x1c0c, "fr-029"), (0x200c, "fr-RE"), (0x240c, "fr-CD"), (0x280c, "fr-SN"), (0x2c0c, "fr-CM"), (0x300c, "fr-CI"), (0x340c, "fr-ML"), (0x380c, "fr-MA"), (0x3c0c, "fr-HT"),
  (0xd, "he"), (0x40d, "he-IL"), (0xe, "hu"), (0x40e, "hu-HU"), (0xf, "is"), (0x40f, "is-IS"), (0x10, "it"), (0x410, "it-IT"), (0x810, "it-CH"), (0x11, "ja"), (0x411, "ja-JP"), (0x12, "ko"),
  (0x412, "ko-KR"), (0x13, "nl"), (0x413, "nl-NL"), (0x813, "nl-BE"), (0x14, "nb"), (0x414, "nb-NO"), (0x814, "nn-NO"), (0x7814, "nn-NO"), (0x7c14, "nb-NO"), (0x15, "pl"), (0x415, "pl-PL"),
  (0x16, "pt"), (0x416, "pt-BR"), (0x816, "pt-PT"), (0x17, "rm"), (0x417, "rm-CH"), (0x18, "ro"), (0x418, "ro-RO"), (0x818, "ro-MD"), (0x19, "ru"), (0x419, "ru-RU"), (0x819, "ru-MD"), (0x1a, "hr"),
  (0x41a, "hr-HR"), (0x81a, "sr-Latn-CS"), (0xc1a, "sr-Cyrl-CS"), (0x101a, "hr-BA"), (0x141a, "bs-Latn-BA"), (0x181a, "sr-Latn-BA"), (0x1c1a, "sr-Cyrl-BA"), (0x201a, "bs-Cyrl-BA"),
  (0x241a, "sr-Latn-RS"), (0x281a, "sr-Cyrl-RS"), (0x2c1a, "sr-Latn-ME"), (0x301a, "sr-Cyrl-ME"), (0x641a, "bs-Cyrl-BA"), (0x681a, "bs-Latn-BA"), (0x6c1a, "sr-Cyrl-RS"), (0x701a, "sr-Latn-RS"),
  (0x781a, "bs-Latn-BA"), (0x7c1a, "sr-Latn-RS"), (0x1b, "sk"), (0x41b, "sk-SK"), (0x1c, "sq"), (0x41c, "sq-AL"), (0x1d, "sv"), (0x41d, "sv-SE"), (0x81d, "sv-FI"), (0x1e, "th"), (0x41e, "th-TH"),
  (0x1f, "tr"), (0x41f, "tr-TR"), (0x20, "ur"), (0x420, "ur-PK"), (0x820, "ur-IN"), (0x21, "id"), (0x421, "id-ID"), (0x22, "uk"), (0x422, "uk-UA"), (0x23, "be"), (0x423, "be-BY"), (0x24, "sl"),
  (0x424, "sl-SI"), (0x25, "et"), (0x425, "et-EE"), (0x26, "lv"), (0x426, "lv-LV"), (0x27, "lt"), (0x427, "lt-LT"), (0x28, "tg"), (0x428, "tg-Cyrl-TJ"), (0x7c28, "tg-Cyrl-TJ"), (0x29, "fa"),
  (0x429, "fa-IR"), (0x2a, "vi"), (0x42a, "vi-VN"), (0x2b, "hy"), (0x42b, "hy-AM"), (0x2c, "az"), (0x42c, "az-Latn-AZ"), (0x82c, "az-Cyrl-AZ"), (0x742c, "az-Cyrl-AZ"), (0x782c, "az-Latn-AZ"),
  (0x2d, "eu"), (0x42d, "eu-ES"), (0x2e, "hsb"), (0x42e, "hsb-DE"), (0x82e, "dsb-DE"), (0x7c2e, "dsb-DE"), (0x2f, "mk"), (0x42f, "mk-MK"), (0x30, "st"), (0x430, "st-ZA"), (0x31, "ts"),
  (0x431, "ts-ZA"), (0x32, "tn"), (0x432, "tn-ZA"), (0x832, "tn-BW"), (0x33, "ve"), (0x433, "ve-ZA"), (0x34, "xh"), (0x434, "xh-ZA"), (0x35, "zu"), (0x435, "zu-ZA"), (0x36, "af"), (0x436, "af-ZA"),
  (0x37, "ka"), (0x437, "ka-GE"), (0x38, "fo"), (0x438, "fo-FO"), (0x39, "hi"), (0x439, "hi-IN"), (0x3a, "mt"), (0x43a, "mt-MT"), (0x3b, "se"), (0x43b, "se-NO"), (0x83b, "se-SE"), (0xc3b, "se-FI"),
  (0x103b, "smj-NO"), (0x143b, "smj-SE"), (0x183b, "sma-NO"), (0x1c3b, "sma-SE"), (0x203b, "sms-FI"), (0x243b, "smn-FI"), (0x703b, "smn-FI"), (0x743b, "sms-FI"), (0x783b, "sma-SE"), (0x7c3b, "smj-SE"),
  (0x3c, "ga"), (0x83c, "ga-IE"), (0x3d, "yi"), (0x43d, "yi-001"), (0x3e, "ms"), (0x43e, "ms-MY"), (0x83e, "ms-BN"), (0x3f, "kk"), (0x43f, "kk-KZ"), (0x40, "ky"), (0x440, "ky-KG"), (0x41, "sw"),
  (0x441, "sw-KE"), (0x42, "tk"), (0x442, "tk-TM"), (0x43, "uz"), (0x443, "uz-Latn-UZ"), (0x843, "uz-Cyrl-UZ"), (0x7843, "uz-Cyrl-UZ"), (0x7c43, "uz-Latn-UZ"), (0x44, "tt"), (0x444, "tt-RU"),
  (0x45, "bn"), (0x445, "bn-IN"), (0x845, "bn-BD"), (0x46, "pa"), (0x446, "pa-IN"), (0x846, "pa-Arab-PK"), (0x7c46, "pa-Arab-PK"), (0x47, "gu"), (0x447, "gu-IN"), (0x48, "or"), (0x448, "or-IN"),
  (0x49, "ta"), (0x449, "ta-IN"), (0x849, "ta-LK"), (0x4a, "te"), (0x44a, "te-IN"), (0x4b, "kn"), (0x44b, "kn-IN"), (0x4c, "ml"), (0x44c, "ml-IN"), (0x4d, "as"), (0x44d, "as-IN"), (0x4e, "mr"),
  (0x44e, "mr-IN"), (0x4f, "sa"), (0x44f, "sa-IN"), (0x50, "mn"), (0x450, "mn-MN"), (0x850, "mn-Mong-CN"), (0xc50, "mn-Mong-MN"), (0x7850, "mn-MN"), (0x7c50, "mn-Mong-CN"), (0x51, "bo"),
  (0x451, "bo-CN"), (0xc51, "dz-BT"), (0x52, "cy"), (0x452, "cy-GB"), (0x53, "km"), (0x453, "km-KH"), (0x54, "lo"), (0x454, "lo-LA"), (0x55, "my"), (0x455, "my-MM"), (0x56, "gl"), (0x456, "gl-ES"),
  (0x57, "kok"), (0x457, "kok-IN"), (0x58, "mni"), (0x458, "mni-IN"), (0x59, "sd"), (0x459, "sd-Deva-IN"), (0x859, "sd-Arab-PK"), (0x7c59, "sd-Arab-PK"), (0x5a, "syr"), (0x45a, "syr-SY"), (0x5b, "si"),
  (0x45b, "si-LK"), (0x5c, "chr"), (0x45c, "chr-Cher-US"), (0x7c5c, "chr-Cher-US"), (0x5d, "iu"), (0x45d, "iu-Cans-CA"), (0x85d, "iu-Latn-CA"), (0x785d, "iu-Cans-CA"), (0x7c5d, "iu-Latn-CA"),
  (0x5e, "am"), (0x45e, "am-ET"), (0x5f, "tzm"), (0x45f, "tzm-Arab-MA"), (0x85f, "tzm-Latn-DZ"), (0x105f, "tzm-Tfng-MA"), (0x785f, "tzm-Tfng-MA"), (0x7c5f, "tzm-Latn-DZ"), (0x60, "ks"),
  (0x460, "ks-Arab-IN"), (0x860, "ks-Deva-IN"), (0x61, "ne"), (0x461, "ne-NP"), (0x861, "ne-IN"), (0x62, "fy"), (0x462, "fy-NL"), (0x63, "ps"), (0x463, "ps-AF"), (0x64, "fil"), (0x464, "fil-PH"),
  (0x65, "dv"), (0x465, "dv-MV"), (0x66, "bin"), (0x466, "bin-NG"), (0x67, "ff"), (0x467, "ff-Latn-NG"), (0x867, "ff-Latn-SN"), (0x7c67, "ff-Latn-SN"), (0x68, "ha"), (0x468, "ha-Latn-NG"),
  (0x7c68, "ha-Latn-NG"), (0x69, "ibb"), (0x469, "ibb-NG"), (0x6a, "yo"), (0x46a, "yo-NG"), (0x6b, "quz"), (0x46b, "quz-BO"), (0x86b, "quz-EC"), (0xc6b, "quz-PE"), (0x6c, "nso"), (0x46c, "nso-ZA"),
  (0x6d, "ba"), (0x46d, "ba-RU"), (0x6e, "lb"), (0x46e, "lb-LU"), (0x6f, "kl"), (0x46f, "kl-GL"), (0x70, "ig"), (0x470, "ig-NG"), (0x71, "kr"), (0x471, "kr-Latn-NG"), (0x72, "om"), (0x472, "om-ET"),
  (0x73, "ti"), (0x473, "ti-ET"), (0x873, "ti-ER"), (0x74, "gn"), (0x474, "gn-PY"), (0x75, "haw"), (0x475, "haw-US"), (0x76, "la"), (0x476, "la-VA"), (0x77, "so"), (0x477, "so-SO"), (0x78, "ii"),
  (0x478, "ii-CN"), (0x79, "pap"), (0x479, "pap-029"), (0x7a, "arn"), (0x47a, "arn-CL"), (0x7c, "moh"), (0x47c, "moh-CA"), (0x7e, "br"), (0x47e, "br-FR"), (0x80, "ug"), (0x480, "ug-CN"), (0x81, "mi"),
  (0x481, "mi-NZ"), (0x82, "oc"), (0x482, "oc-FR"), (0x83, "co"), (0x483, "co-FR"), (0x84, "gsw"), (0x484, "gsw-FR"), (0x85, "sah"), (0x485, "sah-RU"), (0x86, "quc"), (0x486, "quc-Latn-GT"),
  (0x7c86, "quc-Latn-GT"), (0x87, "rw"), (0x487, "rw-RW"), (0x88, "wo"), (0x488, "wo-SN"), (0x8c, "fa"), (0x48c, "fa-AF"), (0x91, "gd"), (0x491, "gd-GB"), (0x92, "ku"), (0x492, "ku-Arab-IQ"),
  (0x7c92, "ku-Arab-IQ"), (0x501, "qps-ploc"), (0x901, "qps-Latn-x-sh"), (0x5fe, "qps-ploca"), (0x9ff, "qps-plocm")]

end Verif.Locale

/-
The tables of include/stdex/sgml_unicode.hpp. Generated by tools/gen_sgml.py; do not edit.
-/
namespace Verif.Sgml
set_option maxRecDepth 4000

/-- sgml_unicode.hpp, entries 0 to 63 of `sgml_unicode` (lines 26-1560). -/
def pairs0 : List (List Nat × List Nat) := [
  ([65,69,108,105,103], [198]),
  ([65,97,99,103,114], [902]),
  ([65,97,99,117,116,101], [193]),
  ([65,97,99,117,116,101], [65,769]),
  ([65,98,114,101,118,101], [258]),
  ([65,98,114,101,118,101], [65,774]),
  ([65,98,114,105,110,103], [65,815]),
  ([65,99,97,114,111,110], [65,780]),
  ([65,99,105,114,99], [194]),
  ([65,99,105,114,99], [65,770]),
  ([65,99,121], [1040]),
  ([65,100,111,116], [65,775]),
  ([65,103,114], [913]),
  ([65,103,114,97,118,101], [192]),
  ([65,103,114,97,118,101], [65,768]),
  ([65,108,112,104,97], [913]),
  ([65,109,97,99,114], [256]),
  ([65,109,97,99,114], [65,772]),
  ([65,111,103,111,110], [260]),
  ([65,114,105,110,103], [197]),
  ([65,116,105,108,100,101], [195]),
  ([65,116,105,108,100,101], [65,771]),
  ([65,117,109,108], [196]),
  ([65,117,109,108], [65,776]),
  ([66,97,99,117,116,101], [66,769]),
  ([66,97,114,119,101,100], [8966]),
  ([66,98,114,101,118,101], [66,774]),
  ([66,98,114,105,110,103], [66,815]),
  ([66,99,97,114,111,110], [66,780]),
  ([66,99,105,114,99], [66,770]),
  ([66,99,121], [1041]),
  ([66,100,111,116], [66,775]),
  ([66,101,116,97], [914]),
  ([66,103,114], [914]),
  ([66,103,114,97,118,101], [66,768]),
  ([66,109,97,99,114], [66,772]),
  ([66,116,105,108,100,101], [66,771]),
  ([66,117,109,108], [66,776]),
  ([67,72,99,121], [1063]),
  ([67,97,99,117,116,101], [262]),
  ([67,97,99,117,116,101], [67,769]),
  ([67,97,112], [8914]),
  ([67,98,114,101,118,101], [67,774]),
  ([67,98,114,105,110,103], [67,815]),
  ([67,99,97,114,111,110], [268]),
  ([67,99,97,114,111,110], [67,780]),
  ([67,99,101,100,105,108], [199]),
  ([67,99,105,114,99], [264]),
  ([67,99,105,114,99], [67,770]),
  ([67,100,111,116], [266]),
  ([67,100,111,116], [67,775]),
  ([67,103,114,97,118,101], [67,768]),
  ([67,104,105], [935]),
  ([67,109,97,99,114], [67,772]),
  ([67,116,105,108,100,101], [67,771]),
  ([67,117,109,108], [67,776]),
  ([67,117,112], [8915]),
  ([68,74,99,121], [1026]),
  ([68,83,99,121], [1029]),
  ([68,90,99,121], [1039]),
  ([68,97,99,117,116,101], [68,769]),
  ([68,97,103,103,101,114], [8225]),
  ([68,98,114,101,118,101], [68,774]),
  ([68,98,114,105,110,103], [68,815])]

/-- sgml_unicode.hpp, entries 64 to 127 of `sgml_unicode` (lines 26-1560). -/
def pairs1 : List (List Nat × List Nat) := [
  ([68,99,97,114,111,110], [270]),
  ([68,99,97,114,111,110], [68,780]),
  ([68,99,105,114,99], [68,770]),
  ([68,99,121], [1044]),
  ([68,100,111,116], [68,775]),
  ([68,101,108,116,97], [916]),
  ([68,103,114], [916]),
  ([68,103,114,97,118,101], [68,768]),
  ([68,109,97,99,114], [68,772]),
  ([68,111,116], [168]),
  ([68,111,116,68,111,116], [8412]),
  ([68,115,116,114,111,107], [272]),
  ([68,116,105,108,100,101], [68,771]),
  ([68,117,109,108], [68,776]),
  ([69,69,97,99,103,114], [905]),
  ([69,69,103,114], [919]),
  ([69,78,71], [330]),
  ([69,84,72], [208]),
  ([69,97,99,103,114], [904]),
  ([69,97,99,117,116,101], [201]),
  ([69,97,99,117,116,101], [69,769]),
  ([69,98,114,101,118,101], [69,774]),
  ([69,98,114,105,110,103], [69,815]),
  ([69,99,97,114,111,110], [282]),
  ([69,99,97,114,111,110], [69,780]),
  ([69,99,105,114,99], [202]),
  ([69,99,105,114,99], [69,770]),
  ([69,99,121], [1069]),
  ([69,100,111,116], [278]),
  ([69,100,111,116], [69,775]),
  ([69,100,111,116,98], [7864]),
  ([69,103,114], [917]),
  ([69,103,114,97,118,101], [200]),
  ([69,103,114,97,118,101], [69,768]),
  ([69,109,97,99,114], [274]),
  ([69,109,97,99,114], [69,772]),
  ([69,111,103,111,110], [280]),
  ([69,112,115,105,108,111,110], [917]),
  ([69,116,97], [919]),
  ([69,116,105,108,100,101], [69,771]),
  ([69,117,109,108], [203]),
  ([69,117,109,108], [69,776]),
  ([70,97,99,117,116,101], [70,769]),
  ([70,98,114,101,118,101], [70,774]),
  ([70,98,114,105,110,103], [70,815]),
  ([70,99,97,114,111,110], [70,780]),
  ([70,99,105,114,99], [70,770]),
  ([70,99,121], [1060]),
  ([70,100,111,116], [70,775]),
  ([70,103,114,97,118,101], [70,768]),
  ([70,109,97,99,114], [70,772]),
  ([70,116,105,108,100,101], [70,771]),
  ([70,117,109,108], [70,776]),
  ([71,74,99,121], [1027]),
  ([71,97,99,117,116,101], [71,769]),
  ([71,97,109,109,97], [915]),
  ([71,98,114,101,118,101], [286]),
  ([71,98,114,101,118,101], [71,774]),
  ([71,98,114,105,110,103], [71,815]),
  ([71,99,97,114,111,110], [71,780]),
  ([71,99,101,100,105,108], [290]),
  ([71,99,105,114,99], [284]),
  ([71,99,105,114,99], [71,770]),
  ([71,99,121], [1043])]

/-- sgml_unicode.hpp, entries 128 to 191 of `sgml_unicode` (lines 26-1560). -/
def pairs2 : List (List Nat × List Nat) := [
  ([71,100,111,116], [288]),
  ([71,100,111,116], [71,775]),
  ([71,103], [8921]),
  ([71,103,114], [915]),
  ([71,103,114,97,118,101], [71,768]),
  ([71,109,97,99,114], [71,772]),
  ([71,116], [8811]),
  ([71,116,105,108,100,101], [71,771]),
  ([71,117,109,108], [71,776]),
  ([72,65,82,68,99,121], [1066]),
  ([72,97,99,117,116,101], [72,769]),
  ([72,98,114,101,118,101], [72,774]),
  ([72,98,114,105,110,103], [72,815]),
  ([72,99,97,114,111,110], [72,780]),
  ([72,99,105,114,99], [292]),
  ([72,99,105,114,99], [72,770]),
  ([72,100,111,116], [72,775]),
  ([72,103,114,97,118,101], [72,768]),
  ([72,109,97,99,114], [72,772]),
  ([72,115,116,114,111,107], [294]),
  ([72,116,105,108,100,101], [72,771]),
  ([72,117,109,108], [72,776]),
  ([73,69,99,121], [1045]),
  ([73,74,108,105,103], [306]),
  ([73,79,99,121], [1025]),
  ([73,97,99,103,114], [906]),
  ([73,97,99,117,116,101], [205]),
  ([73,97,99,117,116,101], [73,769]),
  ([73,98,114,101,118,101], [73,774]),
  ([73,98,114,105,110,103], [73,815]),
  ([73,99,97,114,111,110], [73,780]),
  ([73,99,105,114,99], [206]),
  ([73,99,105,114,99], [73,770]),
  ([73,99,121], [1048]),
  ([73,100,105,103,114], [938]),
  ([73,100,111,116], [304]),
  ([73,100,111,116], [73,775]),
  ([73,103,114], [921]),
  ([73,103,114,97,118,101], [204]),
  ([73,103,114,97,118,101], [73,768]),
  ([73,109,97,99,114], [298]),
  ([73,109,97,99,114], [73,772]),
  ([73,111,103,111,110], [302]),
  ([73,111,116,97], [921]),
  ([73,116,105,108,100,101], [296]),
  ([73,116,105,108,100,101], [73,771]),
  ([73,117,107,99,121], [1030]),
  ([73,117,109,108], [207]),
  ([73,117,109,108], [73,776]),
  ([74,97,99,117,116,101], [74,769]),
  ([74,98,114,101,118,101], [74,774]),
  ([74,98,114,105,110,103], [74,815]),
  ([74,99,97,114,111,110], [74,780]),
  ([74,99,105,114,99], [308]),
  ([74,99,105,114,99], [74,770]),
  ([74,99,121], [1049]),
  ([74,100,111,116], [74,775]),
  ([74,103,114,97,118,101], [74,768]),
  ([74,109,97,99,114], [74,772]),
  ([74,115,101,114,99,121], [1032]),
  ([74,116,105,108,100,101], [74,771]),
  ([74,117,107,99,121], [1028]),
  ([74,117,109,108], [74,776]),
  ([75,72,99,121], [1061])]

/-- sgml_unicode.hpp, entries 192 to 255 of `sgml_unicode` (lines 26-1560). -/
def pairs3 : List (List Nat × List Nat) := [
  ([75,72,103,114], [935]),
  ([75,74,99,121], [1036]),
  ([75,97,99,117,116,101], [75,769]),
  ([75,97,112,112,97], [922]),
  ([75,98,114,101,118,101], [75,774]),
  ([75,98,114,105,110,103], [75,815]),
  ([75,99,97,114,111,110], [75,780]),
  ([75,99,101,100,105,108], [310]),
  ([75,99,105,114,99], [75,770]),
  ([75,99,121], [1050]),
  ([75,100,111,116], [75,775]),
  ([75,103,114], [922]),
  ([75,103,114,97,118,101], [75,768]),
  ([75,109,97,99,114], [75,772]),
  ([75,116,105,108,100,101], [75,771]),
  ([75,117,109,108], [75,776]),
  ([76,74,99,121], [1033]),
  ([76,97,99,117,116,101], [313]),
  ([76,97,99,117,116,101], [76,769]),
  ([76,97,109,98,100,97], [923]),
  ([76,97,114,114], [8606]),
  ([76,98,114,101,118,101], [76,774]),
  ([76,98,114,105,110,103], [76,815]),
  ([76,99,97,114,111,110], [317]),
  ([76,99,97,114,111,110], [76,780]),
  ([76,99,101,100,105,108], [315]),
  ([76,99,105,114,99], [76,770]),
  ([76,99,121], [1051]),
  ([76,100,111,116], [76,775]),
  ([76,103,114], [923]),
  ([76,103,114,97,118,101], [76,768]),
  ([76,108], [8920]),
  ([76,109,97,99,114], [76,772]),
  ([76,109,105,100,111,116], [319]),
  ([76,115,116,114,111,107], [321]),
  ([76,116], [8810]),
  ([76,116,105,108,100,101], [76,771]),
  ([76,117,109,108], [76,776]),
  ([77,97,99,117,116,101], [77,769]),
  ([77,98,114,101,118,101], [77,774]),
  ([77,98,114,105,110,103], [77,815]),
  ([77,99,97,114,111,110], [77,780]),
  ([77,99,105,114,99], [77,770]),
  ([77,99,121], [1052]),
  ([77,100,111,116], [77,775]),
  ([77,103,114], [924]),
  ([77,103,114,97,118,101], [77,768]),
  ([77,109,97,99,114], [77,772]),
  ([77,116,105,108,100,101], [77,771]),
  ([77,117], [924]),
  ([77,117,109,108], [77,776]),
  ([78,74,99,121], [1034]),
  ([78,97,99,117,116,101], [323]),
  ([78,97,99,117,116,101], [78,769]),
  ([78,98,114,101,118,101], [78,774]),
  ([78,98,114,105,110,103], [78,815]),
  ([78,99,97,114,111,110], [327]),
  ([78,99,97,114,111,110], [78,780]),
  ([78,99,101,100,105,108], [325]),
  ([78,99,105,114,99], [78,770]),
  ([78,99,121], [1053]),
  ([78,100,111,116], [78,775]),
  ([78,103,114], [925]),
  ([78,103,114,97,118,101], [78,768])]

/-- sgml_unicode.hpp, entries 256 to 319 of `sgml_unicode` (lines 26-1560). -/
def pairs4 : List (List Nat × List Nat) := [
  ([78,109,97,99,114], [78,772]),
  ([78,116,105,108,100,101], [209]),
  ([78,116,105,108,100,101], [78,771]),
  ([78,117], [925]),
  ([78,117,109,108], [78,776]),
  ([79,69,108,105,103], [338]),
  ([79,72,97,99,103,114], [911]),
  ([79,72,103,114], [937]),
  ([79,97,99,103,114], [908]),
  ([79,97,99,117,116,101], [211]),
  ([79,97,99,117,116,101], [79,769]),
  ([79,98,114,101,118,101], [79,774]),
  ([79,98,114,105,110,103], [79,815]),
  ([79,99,97,114,111,110], [465]),
  ([79,99,97,114,111,110], [79,780]),
  ([79,99,105,114,99], [212]),
  ([79,99,105,114,99], [79,770]),
  ([79,99,121], [1054]),
  ([79,100,98,108,97,99], [336]),
  ([79,100,111,116], [79,775]),
  ([79,100,111,116,98], [7884]),
  ([79,103,114], [927]),
  ([79,103,114,97,118,101], [210]),
  ([79,103,114,97,118,101], [79,768]),
  ([79,109,97,99,114], [332]),
  ([79,109,97,99,114], [79,772]),
  ([79,109,101,103,97], [937]),
  ([79,109,105,99,114,111,110], [927]),
  ([79,115,108,97,115,104], [216]),
  ([79,116,105,108,100,101], [213]),
  ([79,116,105,108,100,101], [79,771]),
  ([79,117,109,108], [214]),
  ([79,117,109,108], [79,776]),
  ([80,72,103,114], [934]),
  ([80,83,103,114], [936]),
  ([80,97,99,117,116,101], [80,769]),
  ([80,98,114,101,118,101], [80,774]),
  ([80,98,114,105,110,103], [80,815]),
  ([80,99,97,114,111,110], [80,780]),
  ([80,99,105,114,99], [80,770]),
  ([80,99,121], [1055]),
  ([80,100,111,116], [80,775]),
  ([80,103,114], [928]),
  ([80,103,114,97,118,101], [80,768]),
  ([80,104,105], [934]),
  ([80,105], [928]),
  ([80,109,97,99,114], [80,772]),
  ([80,114,105,109,101], [8243]),
  ([80,115,105], [936]),
  ([80,116,105,108,100,101], [80,771]),
  ([80,117,109,108], [80,776]),
  ([81,97,99,117,116,101], [81,769]),
  ([81,98,114,101,118,101], [81,774]),
  ([81,98,114,105,110,103], [81,815]),
  ([81,99,97,114,111,110], [81,780]),
  ([81,99,105,114,99], [81,770]),
  ([81,100,111,116], [81,775]),
  ([81,103,114,97,118,101], [81,768]),
  ([81,109,97,99,114], [81,772]),
  ([81,116,105,108,100,101], [81,771]),
  ([81,117,109,108], [81,776]),
  ([82,97,99,117,116,101], [340]),
  ([82,97,99,117,116,101], [82,769]),
  ([82,97,114,114], [8608])]

/-- sgml_unicode.hpp, entries 320 to 383 of `sgml_unicode` (lines 26-1560). -/
def pairs5 : List (List Nat × List Nat) := [
  ([82,98,114,101,118,101], [82,774]),
  ([82,98,114,105,110,103], [82,815]),
  ([82,99,97,114,111,110], [344]),
  ([82,99,97,114,111,110], [82,780]),
  ([82,99,101,100,105,108], [342]),
  ([82,99,105,114,99], [82,770]),
  ([82,99,121], [1056]),
  ([82,100,111,116], [82,775]),
  ([82,103,114], [929]),
  ([82,103,114,97,118,101], [82,768]),
  ([82,104,111], [929]),
  ([82,109,97,99,114], [82,772]),
  ([82,116,105,108,100,101], [82,771]),
  ([82,117,109,108], [82,776]),
  ([83,72,67,72,99,121], [1065]),
  ([83,72,99,121], [1064]),
  ([83,79,70,84,99,121], [1068]),
  ([83,97,99,117,116,101], [346]),
  ([83,97,99,117,116,101], [83,769]),
  ([83,98,114,101,118,101], [83,774]),
  ([83,98,114,105,110,103], [83,815]),
  ([83,99,97,114,111,110], [352]),
  ([83,99,97,114,111,110], [83,780]),
  ([83,99,101,100,105,108], [350]),
  ([83,99,105,114,99], [348]),
  ([83,99,105,114,99], [83,770]),
  ([83,99,121], [1057]),
  ([83,100,111,116], [83,775]),
  ([83,103,114], [931]),
  ([83,103,114,97,118,101], [83,768]),
  ([83,105,103,109,97], [931]),
  ([83,109,97,99,114], [83,772]),
  ([83,116,105,108,100,101], [83,771]),
  ([83,117,98], [8912]),
  ([83,117,109,108], [83,776]),
  ([83,117,112], [8913]),
  ([84,72,79,82,78], [222]),
  ([84,72,103,114], [920]),
  ([84,83,72,99,121], [1035]),
  ([84,83,99,121], [1062]),
  ([84,97,99,117,116,101], [84,769]),
  ([84,97,117], [932]),
  ([84,98,114,101,118,101], [84,774]),
  ([84,98,114,105,110,103], [84,815]),
  ([84,99,97,114,111,110], [356]),
  ([84,99,97,114,111,110], [84,780]),
  ([84,99,101,100,105,108], [354]),
  ([84,99,105,114,99], [84,770]),
  ([84,99,121], [1058]),
  ([84,100,111,116], [84,775]),
  ([84,103,114], [932]),
  ([84,103,114,97,118,101], [84,768]),
  ([84,104,101,116,97], [920]),
  ([84,109,97,99,114], [84,772]),
  ([84,115,116,114,111,107], [358]),
  ([84,116,105,108,100,101], [84,771]),
  ([84,117,109,108], [84,776]),
  ([85,97,99,103,114], [910]),
  ([85,97,99,117,116,101], [218]),
  ([85,97,99,117,116,101], [85,769]),
  ([85,98,114,99,121], [1038]),
  ([85,98,114,101,118,101], [364]),
  ([85,98,114,101,118,101], [85,774]),
  ([85,98,114,105,110,103], [85,815])]

/-- sgml_unicode.hpp, entries 384 to 447 of `sgml_unicode` (lines 26-1560). -/
def pairs6 : List (List Nat × List Nat) := [
  ([85,99,97,114,111,110], [85,780]),
  ([85,99,105,114,99], [219]),
  ([85,99,105,114,99], [85,770]),
  ([85,99,121], [1059]),
  ([85,100,98,108,97,99], [368]),
  ([85,100,105,103,114], [939]),
  ([85,100,111,116], [85,775]),
  ([85,103,114], [933]),
  ([85,103,114,97,118,101], [217]),
  ([85,103,114,97,118,101], [85,768]),
  ([85,109,97,99,114], [362]),
  ([85,109,97,99,114], [85,772]),
  ([85,111,103,111,110], [370]),
  ([85,112,115,105], [933]),
  ([85,112,115,105,108,111,110], [933]),
  ([85,114,105,110,103], [366]),
  ([85,116,105,108,100,101], [360]),
  ([85,116,105,108,100,101], [85,771]),
  ([85,117,109,108], [220]),
  ([85,117,109,108], [85,776]),
  ([86,97,99,117,116,101], [86,769]),
  ([86,98,114,101,118,101], [86,774]),
  ([86,98,114,105,110,103], [86,815]),
  ([86,99,97,114,111,110], [86,780]),
  ([86,99,105,114,99], [86,770]),
  ([86,99,121], [1042]),
  ([86,100,97,115,104], [8873]),
  ([86,100,111,116], [86,775]),
  ([86,101,114,98,97,114], [8214]),
  ([86,103,114,97,118,101], [86,768]),
  ([86,109,97,99,114], [86,772]),
  ([86,116,105,108,100,101], [86,771]),
  ([86,117,109,108], [86,776]),
  ([86,118,100,97,115,104], [8874]),
  ([87,97,99,117,116,101], [87,769]),
  ([87,98,114,101,118,101], [87,774]),
  ([87,98,114,105,110,103], [87,815]),
  ([87,99,97,114,111,110], [87,780]),
  ([87,99,105,114,99], [372]),
  ([87,99,105,114,99], [87,770]),
  ([87,100,111,116], [87,775]),
  ([87,103,114,97,118,101], [87,768]),
  ([87,109,97,99,114], [87,772]),
  ([87,116,105,108,100,101], [87,771]),
  ([87,117,109,108], [87,776]),
  ([88,97,99,117,116,101], [88,769]),
  ([88,98,114,101,118,101], [88,774]),
  ([88,98,114,105,110,103], [88,815]),
  ([88,99,97,114,111,110], [88,780]),
  ([88,99,105,114,99], [88,770]),
  ([88,100,111,116], [88,775]),
  ([88,103,114], [926]),
  ([88,103,114,97,118,101], [88,768]),
  ([88,105], [926]),
  ([88,109,97,99,114], [88,772]),
  ([88,116,105,108,100,101], [88,771]),
  ([88,117,109,108], [88,776]),
  ([89,65,99,121], [1071]),
  ([89,73,99,121], [1031]),
  ([89,85,99,121], [1070]),
  ([89,97,99,117,116,101], [221]),
  ([89,97,99,117,116,101], [89,769]),
  ([89,98,114,101,118,101], [89,774]),
  ([89,98,114,105,110,103], [89,815])]

/-- sgml_unicode.hpp, entries 448 to 511 of `sgml_unicode` (lines 26-1560). -/
def pairs7 : List (List Nat × List Nat) := [
  ([89,99,97,114,111,110], [89,780]),
  ([89,99,105,114,99], [374]),
  ([89,99,105,114,99], [89,770]),
  ([89,99,121], [1067]),
  ([89,100,111,116], [89,775]),
  ([89,103,114,97,118,101], [89,768]),
  ([89,109,97,99,114], [89,772]),
  ([89,116,105,108,100,101], [89,771]),
  ([89,117,109,108], [376]),
  ([89,117,109,108], [89,776]),
  ([90,72,99,121], [1046]),
  ([90,97,99,117,116,101], [377]),
  ([90,97,99,117,116,101], [90,769]),
  ([90,98,114,101,118,101], [90,774]),
  ([90,98,114,105,110,103], [90,815]),
  ([90,99,97,114,111,110], [381]),
  ([90,99,97,114,111,110], [90,780]),
  ([90,99,105,114,99], [90,770]),
  ([90,99,121], [1047]),
  ([90,100,111,116], [379]),
  ([90,100,111,116], [90,775]),
  ([90,101,116,97], [918]),
  ([90,103,114], [918]),
  ([90,103,114,97,118,101], [90,768]),
  ([90,109,97,99,114], [90,772]),
  ([90,116,105,108,100,101], [90,771]),
  ([90,117,109,108], [90,776]),
  ([97,97,99,103,114], [940]),
  ([97,97,99,117,116,101], [225]),
  ([97,97,99,117,116,101], [97,769]),
  ([97,98,114,101,118,101], [259]),
  ([97,98,114,101,118,101], [97,774]),
  ([97,98,114,105,110,103], [97,815]),
  ([97,99,97,114,111,110], [97,780]),
  ([97,99,105,114,99], [226]),
  ([97,99,105,114,99], [97,770]),
  ([97,99,117,116,101], [180]),
  ([97,99,121], [1072]),
  ([97,100,111,116], [97,775]),
  ([97,101,108,105,103], [230]),
  ([97,103,114], [945]),
  ([97,103,114,97,118,101], [224]),
  ([97,103,114,97,118,101], [97,768]),
  ([97,108,101,102,115,121,109], [8501]),
  ([97,108,101,112,104], [8501]),
  ([97,108,112,104,97], [945]),
  ([97,109,97,99,114], [257]),
  ([97,109,97,99,114], [97,772]),
  ([97,109,97,108,103], [8720]),
  ([97,109,112], [38]),
  ([97,110,100], [8743]),
  ([97,110,103], [8736]),
  ([97,110,103,57,48], [8735]),
  ([97,110,103,109,115,100], [8737]),
  ([97,110,103,115,112,104], [8738]),
  ([97,110,103,115,116], [8491]),
  ([97,111,103,111,110], [261]),
  ([97,112], [8776]),
  ([97,112,101], [8778]),
  ([97,112,111,115], [39]),
  ([97,112,111,115], [700]),
  ([97,114,105,110,103], [229]),
  ([97,115,116], [42]),
  ([97,115,121,109,112], [8776])]

/-- sgml_unicode.hpp, entries 512 to 575 of `sgml_unicode` (lines 26-1560). -/
def pairs8 : List (List Nat × List Nat) := [
  ([97,116,105,108,100,101], [227]),
  ([97,116,105,108,100,101], [97,771]),
  ([97,117,109,108], [228]),
  ([97,117,109,108], [97,776]),
  ([98,46,68,101,108,116,97], [916]),
  ([98,46,71,97,109,109,97], [915]),
  ([98,46,76,97,109,98,100,97], [923]),
  ([98,46,79,109,101,103,97], [937]),
  ([98,46,80,104,105], [934]),
  ([98,46,80,105], [928]),
  ([98,46,80,115,105], [936]),
  ([98,46,83,105,103,109,97], [931]),
  ([98,46,84,104,101,116,97], [920]),
  ([98,46,85,112,115,105], [933]),
  ([98,46,88,105], [926]),
  ([98,46,97,108,112,104,97], [945]),
  ([98,46,98,101,116,97], [946]),
  ([98,46,99,104,105], [967]),
  ([98,46,100,101,108,116,97], [948]),
  ([98,46,101,112,115,105], [949]),
  ([98,46,101,112,115,105,115], [949]),
  ([98,46,101,112,115,105,118], [949]),
  ([98,46,101,116,97], [951]),
  ([98,46,103,97,109,109,97], [947]),
  ([98,46,103,97,109,109,97,100], [988]),
  ([98,46,105,111,116,97], [953]),
  ([98,46,107,97,112,112,97], [954]),
  ([98,46,107,97,112,112,97,118], [1008]),
  ([98,46,108,97,109,98,100,97], [955]),
  ([98,46,109,117], [956]),
  ([98,46,110,117], [957]),
  ([98,46,111,109,101,103,97], [974]),
  ([98,46,112,104,105,115], [966]),
  ([98,46,112,104,105,118], [981]),
  ([98,46,112,105], [960]),
  ([98,46,112,105,118], [982]),
  ([98,46,112,115,105], [968]),
  ([98,46,114,104,111], [961]),
  ([98,46,114,104,111,118], [1009]),
  ([98,46,115,105,103,109,97], [963]),
  ([98,46,115,105,103,109,97,118], [962]),
  ([98,46,116,97,117], [964]),
  ([98,46,116,104,101,116,97,115], [952]),
  ([98,46,116,104,101,116,97,118], [977]),
  ([98,46,117,112,115,105], [965]),
  ([98,46,120,105], [958]),
  ([98,46,122,101,116,97], [950]),
  ([98,97,99,117,116,101], [98,769]),
  ([98,97,114,119,101,100], [8892]),
  ([98,98,114,101,118,101], [98,774]),
  ([98,98,114,105,110,103], [98,815]),
  ([98,99,97,114,111,110], [98,780]),
  ([98,99,105,114,99], [98,770]),
  ([98,99,111,110,103], [8780]),
  ([98,99,121], [1073]),
  ([98,100,111,116], [98,775]),
  ([98,100,113,117,111], [8222]),
  ([98,101,99,97,117,115], [8757]),
  ([98,101,112,115,105], [8717]),
  ([98,101,114,110,111,117], [8492]),
  ([98,101,116,97], [946]),
  ([98,101,116,104], [8502]),
  ([98,103,114], [946]),
  ([98,103,114,97,118,101], [98,768])]

/-- sgml_unicode.hpp, entries 576 to 639 of `sgml_unicode` (lines 26-1560). -/
def pairs9 : List (List Nat × List Nat) := [
  ([98,108,97,110,107], [9251]),
  ([98,108,107,49,50], [9618]),
  ([98,108,107,49,52], [9617]),
  ([98,108,107,51,52], [9619]),
  ([98,108,111,99,107], [9608]),
  ([98,109,97,99,114], [98,772]),
  ([98,111,116,116,111,109], [8869]),
  ([98,111,119,116,105,101], [8904]),
  ([98,111,120,68,76], [9559]),
  ([98,111,120,68,82], [9556]),
  ([98,111,120,68,108], [9558]),
  ([98,111,120,68,114], [9555]),
  ([98,111,120,72], [9552]),
  ([98,111,120,72,68], [9574]),
  ([98,111,120,72,85], [9577]),
  ([98,111,120,72,100], [9572]),
  ([98,111,120,72,117], [9575]),
  ([98,111,120,85,76], [9565]),
  ([98,111,120,85,82], [9562]),
  ([98,111,120,85,108], [9564]),
  ([98,111,120,85,114], [9561]),
  ([98,111,120,86], [9553]),
  ([98,111,120,86,72], [9580]),
  ([98,111,120,86,76], [9571]),
  ([98,111,120,86,82], [9568]),
  ([98,111,120,86,104], [9579]),
  ([98,111,120,86,108], [9570]),
  ([98,111,120,86,114], [9567]),
  ([98,111,120,100,76], [9557]),
  ([98,111,120,100,82], [9554]),
  ([98,111,120,100,108], [9488]),
  ([98,111,120,100,114], [9484]),
  ([98,111,120,104], [9472]),
  ([98,111,120,104,68], [9573]),
  ([98,111,120,104,85], [9576]),
  ([98,111,120,104,100], [9516]),
  ([98,111,120,104,117], [9524]),
  ([98,111,120,117,76], [9563]),
  ([98,111,120,117,82], [9560]),
  ([98,111,120,117,108], [9496]),
  ([98,111,120,117,114], [9492]),
  ([98,111,120,118], [9474]),
  ([98,111,120,118,72], [9578]),
  ([98,111,120,118,76], [9569]),
  ([98,111,120,118,82], [9566]),
  ([98,111,120,118,104], [9532]),
  ([98,111,120,118,108], [9508]),
  ([98,111,120,118,114], [9500]),
  ([98,112,114,105,109,101], [8245]),
  ([98,114,101,118,101], [728]),
  ([98,114,118,98,97,114], [166]),
  ([98,115,105,109], [8765]),
  ([98,115,105,109,101], [8909]),
  ([98,115,111,108], [92]),
  ([98,116,105,108,100,101], [98,771]),
  ([98,117,108,108], [8226]),
  ([98,117,109,108], [98,776]),
  ([98,117,109,112], [8782]),
  ([98,117,109,112,101], [8783]),
  ([99,97,99,117,116,101], [263]),
  ([99,97,99,117,116,101], [99,769]),
  ([99,97,112], [8745]),
  ([99,97,114,101,116], [8257]),
  ([99,97,114,111,110], [711])]

/-- sgml_unicode.hpp, entries 640 to 703 of `sgml_unicode` (lines 26-1560). -/
def pairs10 : List (List Nat × List Nat) := [
  ([99,98,114,101,118,101], [99,774]),
  ([99,98,114,105,110,103], [99,815]),
  ([99,99,97,114,111,110], [269]),
  ([99,99,97,114,111,110], [99,780]),
  ([99,99,101,100,105,108], [231]),
  ([99,99,105,114,99], [265]),
  ([99,99,105,114,99], [99,770]),
  ([99,100,111,116], [267]),
  ([99,100,111,116], [99,775]),
  ([99,101,100,105,108], [184]),
  ([99,101,110,116], [162]),
  ([99,103,114,97,118,101], [99,768]),
  ([99,104,99,121], [1095]),
  ([99,104,101,99,107], [10003]),
  ([99,104,105], [967]),
  ([99,105,114], [9675]),
  ([99,105,114,99], [710]),
  ([99,105,114,99,108,101,102], [9679]),
  ([99,105,114,99,108,101,102,98], [9682]),
  ([99,105,114,99,108,101,102,108], [9680]),
  ([99,105,114,99,108,101,102,114], [9681]),
  ([99,105,114,99,108,101,102,116], [9683]),
  ([99,105,114,101], [8791]),
  ([99,108,117,98,115], [9827]),
  ([99,109,97,99,114], [99,772]),
  ([99,111,108,111,110], [58]),
  ([99,111,108,111,110,101], [8788]),
  ([99,111,109,109,97], [44]),
  ([99,111,109,109,97,116], [64]),
  ([99,111,109,112], [8705]),
  ([99,111,109,112,102,110], [8728]),
  ([99,111,110,103], [8773]),
  ([99,111,110,105,110,116], [8750]),
  ([99,111,112,114,111,100], [8720]),
  ([99,111,112,121], [169]),
  ([99,111,112,121,115,114], [8471]),
  ([99,114,97,114,114], [8629]),
  ([99,114,111,115,115], [10007]),
  ([99,116,105,108,100,101], [99,771]),
  ([99,117,101,112,114], [8926]),
  ([99,117,101,115,99], [8927]),
  ([99,117,108,97,114,114], [8630]),
  ([99,117,109,108], [99,776]),
  ([99,117,112], [8746]),
  ([99,117,112,114,101], [8828]),
  ([99,117,114,97,114,114], [8631]),
  ([99,117,114,114,101,110], [164]),
  ([99,117,118,101,101], [8910]),
  ([99,117,119,101,100], [8911]),
  ([100,65,114,114], [8659]),
  ([100,97,99,117,116,101], [100,769]),
  ([100,97,103,103,101,114], [8224]),
  ([100,97,108,101,116,104], [8504]),
  ([100,97,114,114], [8595]),
  ([100,97,114,114,50], [8650]),
  ([100,97,115,104], [8208]),
  ([100,97,115,104,118], [8867]),
  ([100,98,108,97,99], [733]),
  ([100,98,114,101,118,101], [100,774]),
  ([100,98,114,105,110,103], [100,815]),
  ([100,99,97,114,111,110], [271]),
  ([100,99,97,114,111,110], [100,780]),
  ([100,99,105,114,99], [100,770]),
  ([100,99,121], [1076])]

/-- sgml_unicode.hpp, entries 704 to 767 of `sgml_unicode` (lines 26-1560). -/
def pairs11 : List (List Nat × List Nat) := [
  ([100,100,111,116], [100,775]),
  ([100,101,103], [176]),
  ([100,101,108,116,97], [948]),
  ([100,103,114], [948]),
  ([100,103,114,97,118,101], [100,768]),
  ([100,104,97,114,108], [8643]),
  ([100,104,97,114,114], [8642]),
  ([100,105,97,109], [8900]),
  ([100,105,97,109,111,110,100,102], [9670]),
  ([100,105,97,109,115], [9830]),
  ([100,105,101], [168]),
  ([100,105,118,105,100,101], [247]),
  ([100,105,118,111,110,120], [8903]),
  ([100,106,99,121], [1106]),
  ([100,108,97,114,114], [8601]),
  ([100,108,99,111,114,110], [8990]),
  ([100,108,99,114,111,112], [8973]),
  ([100,109,97,99,114], [100,772]),
  ([100,111,108,108,97,114], [36]),
  ([100,111,116], [729]),
  ([100,114,97,114,114], [8600]),
  ([100,114,99,111,114,110], [8991]),
  ([100,114,99,114,111,112], [8972]),
  ([100,115,99,121], [1109]),
  ([100,115,116,114,111,107], [273]),
  ([100,116,105,108,100,101], [100,771]),
  ([100,116,114,105], [9663]),
  ([100,116,114,105,102], [9662]),
  ([100,117,109,108], [100,776]),
  ([100,122,99,121], [1119]),
  ([101,68,111,116], [8785]),
  ([101,97,99,103,114], [941]),
  ([101,97,99,117,116,101], [233]),
  ([101,97,99,117,116,101], [101,769]),
  ([101,98,114,101,118,101], [101,774]),
  ([101,98,114,105,110,103], [101,815]),
  ([101,99,97,114,111,110], [283]),
  ([101,99,97,114,111,110], [101,780]),
  ([101,99,105,114], [8790]),
  ([101,99,105,114,99], [234]),
  ([101,99,105,114,99], [101,770]),
  ([101,99,111,108,111,110], [8789]),
  ([101,99,121], [1101]),
  ([101,100,111,116], [279]),
  ([101,100,111,116], [101,775]),
  ([101,100,111,116,98], [7865]),
  ([101,101,97,99,103,114], [942]),
  ([101,101,103,114], [951]),
  ([101,102,68,111,116], [8786]),
  ([101,103,114], [949]),
  ([101,103,114,97,118,101], [232]),
  ([101,103,114,97,118,101], [101,768]),
  ([101,103,115], [8925]),
  ([101,108,108], [8467]),
  ([101,108,115], [8924]),
  ([101,109,97,99,114], [275]),
  ([101,109,97,99,114], [101,772]),
  ([101,109,112,116,121], [8709]),
  ([101,109,115,112], [8195]),
  ([101,109,115,112,49,51], [8196]),
  ([101,109,115,112,49,52], [8197]),
  ([101,110,103], [331]),
  ([101,110,115,112], [8194]),
  ([101,111,103,111,110], [281])]

/-- sgml_unicode.hpp, entries 768 to 831 of `sgml_unicode` (lines 26-1560). -/
def pairs12 : List (List Nat × List Nat) := [
  ([101,112,115,105], [949]),
  ([101,112,115,105,108,111,110], [949]),
  ([101,112,115,105,115], [8714]),
  ([101,113,117,97,108,115], [61]),
  ([101,113,117,105,118], [8801]),
  ([101,114,68,111,116], [8787]),
  ([101,115,100,111,116], [8784]),
  ([101,116,97], [951]),
  ([101,116,104], [240]),
  ([101,116,105,108,100,101], [101,771]),
  ([101,117,109,108], [235]),
  ([101,117,109,108], [101,776]),
  ([101,117,114,111], [8364]),
  ([101,120,99,108], [33]),
  ([101,120,105,115,116], [8707]),
  ([102,97,99,117,116,101], [102,769]),
  ([102,98,114,101,118,101], [102,774]),
  ([102,98,114,105,110,103], [102,815]),
  ([102,99,97,114,111,110], [102,780]),
  ([102,99,105,114,99], [102,770]),
  ([102,99,121], [1092]),
  ([102,100,111,116], [102,775]),
  ([102,101,109,97,108,101], [9792]),
  ([102,102,105,108,105,103], [64259]),
  ([102,102,108,105,103], [64256]),
  ([102,102,108,108,105,103], [64260]),
  ([102,103,114,97,118,101], [102,768]),
  ([102,105,108,105,103], [64257]),
  ([102,108,97,116], [9837]),
  ([102,108,108,105,103], [64258]),
  ([102,109,97,99,114], [102,772]),
  ([102,110,111,102], [402]),
  ([102,111,114,97,108,108], [8704]),
  ([102,111,114,107], [8916]),
  ([102,114,97,99,49,50], [189]),
  ([102,114,97,99,49,51], [8531]),
  ([102,114,97,99,49,52], [188]),
  ([102,114,97,99,49,53], [8533]),
  ([102,114,97,99,49,54], [8537]),
  ([102,114,97,99,49,56], [8539]),
  ([102,114,97,99,50,51], [8532]),
  ([102,114,97,99,50,53], [8534]),
  ([102,114,97,99,51,52], [190]),
  ([102,114,97,99,51,53], [8535]),
  ([102,114,97,99,51,56], [8540]),
  ([102,114,97,99,52,53], [8536]),
  ([102,114,97,99,53,54], [8538]),
  ([102,114,97,99,53,56], [8541]),
  ([102,114,97,99,55,56], [8542]),
  ([102,114,97,115,108], [8260]),
  ([102,114,111,119,110], [8994]),
  ([102,116,105,108,100,101], [102,771]),
  ([102,117,109,108], [102,776]),
  ([103,69], [8807]),
  ([103,97,99,117,116,101], [501]),
  ([103,97,99,117,116,101], [103,769]),
  ([103,97,109,109,97], [947]),
  ([103,97,109,109,97,100], [988]),
  ([103,98,114,101,118,101], [287]),
  ([103,98,114,101,118,101], [103,774]),
  ([103,98,114,105,110,103], [103,815]),
  ([103,99,97,114,111,110], [103,780]),
  ([103,99,101,100,105,108], [291]),
  ([103,99,105,114,99], [285])]

/-- sgml_unicode.hpp, entries 832 to 895 of `sgml_unicode` (lines 26-1560). -/
def pairs13 : List (List Nat × List Nat) := [
  ([103,99,105,114,99], [103,770]),
  ([103,99,121], [1075]),
  ([103,100,111,116], [289]),
  ([103,100,111,116], [103,775]),
  ([103,101], [8805]),
  ([103,101,108], [8923]),
  ([103,101,115], [8805]),
  ([103,103,114], [947]),
  ([103,103,114,97,118,101], [103,768]),
  ([103,105,109,101,108], [8503]),
  ([103,106,99,121], [1107]),
  ([103,108], [8823]),
  ([103,109,97,99,114], [103,772]),
  ([103,110,69], [8809]),
  ([103,110,101], [8809]),
  ([103,110,115,105,109], [8935]),
  ([103,114,97,118,101], [96]),
  ([103,115,100,111,116], [8919]),
  ([103,115,105,109], [8819]),
  ([103,116], [62]),
  ([103,116,105,108,100,101], [103,771]),
  ([103,117,109,108], [103,776]),
  ([103,118,110,69], [8809]),
  ([104,65,114,114], [8660]),
  ([104,97,99,117,116,101], [104,769]),
  ([104,97,105,114,115,112], [8202]),
  ([104,97,108,102], [189]),
  ([104,97,109,105,108,116], [8459]),
  ([104,97,114,100,99,121], [1098]),
  ([104,97,114,114], [8596]),
  ([104,97,114,114,119], [8621]),
  ([104,98,114,101,118,101], [104,774]),
  ([104,98,114,105,110,103], [104,815]),
  ([104,99,97,114,111,110], [104,780]),
  ([104,99,105,114,99], [293]),
  ([104,99,105,114,99], [104,770]),
  ([104,100,111,116], [104,775]),
  ([104,101,97,114,116,115], [9829]),
  ([104,101,108,108,105,112], [8230]),
  ([104,103,114,97,118,101], [104,768]),
  ([104,109,97,99,114], [104,772]),
  ([104,111,114,98,97,114], [8213]),
  ([104,115,116,114,111,107], [295]),
  ([104,116,105,108,100,101], [104,771]),
  ([104,117,109,108], [104,776]),
  ([104,121,98,117,108,108], [8259]),
  ([104,121,112,104,101,110], [45]),
  ([105,97,99,103,114], [943]),
  ([105,97,99,117,116,101], [237]),
  ([105,97,99,117,116,101], [105,769]),
  ([105,98,114,101,118,101], [105,774]),
  ([105,98,114,105,110,103], [105,815]),
  ([105,99,97,114,111,110], [105,780]),
  ([105,99,105,114,99], [238]),
  ([105,99,105,114,99], [105,770]),
  ([105,99,121], [1080]),
  ([105,100,105,97,103,114], [912]),
  ([105,100,105,103,114], [970]),
  ([105,100,111,116], [105,775]),
  ([105,101,99,121], [1077]),
  ([105,101,120,99,108], [161]),
  ([105,102,102], [8660]),
  ([105,103,114], [953]),
  ([105,103,114,97,118,101], [236])]

/-- sgml_unicode.hpp, entries 896 to 959 of `sgml_unicode` (lines 26-1560). -/
def pairs14 : List (List Nat × List Nat) := [
  ([105,103,114,97,118,101], [105,768]),
  ([105,106,108,105,103], [307]),
  ([105,109,97,99,114], [299]),
  ([105,109,97,99,114], [105,772]),
  ([105,109,97,103,101], [8465]),
  ([105,110,99,97,114,101], [8453]),
  ([105,110,102,105,110], [8734]),
  ([105,110,111,100,111,116], [305]),
  ([105,110,111,100,111,116], [305]),
  ([105,110,116], [8747]),
  ([105,110,116,99,97,108], [8890]),
  ([105,111,99,121], [1105]),
  ([105,111,103,111,110], [303]),
  ([105,111,116,97], [953]),
  ([105,113,117,101,115,116], [191]),
  ([105,115,105,110], [8712]),
  ([105,116,105,108,100,101], [297]),
  ([105,116,105,108,100,101], [105,771]),
  ([105,117,107,99,121], [1110]),
  ([105,117,109,108], [239]),
  ([105,117,109,108], [105,776]),
  ([106,97,99,117,116,101], [106,769]),
  ([106,98,114,101,118,101], [106,774]),
  ([106,98,114,105,110,103], [106,815]),
  ([106,99,97,114,111,110], [106,780]),
  ([106,99,105,114,99], [309]),
  ([106,99,105,114,99], [106,770]),
  ([106,99,121], [1081]),
  ([106,100,111,116], [106,775]),
  ([106,103,114,97,118,101], [106,768]),
  ([106,109,97,99,114], [106,772]),
  ([106,115,101,114,99,121], [1112]),
  ([106,116,105,108,100,101], [106,771]),
  ([106,117,107,99,121], [1108]),
  ([106,117,109,108], [106,776]),
  ([107,97,99,117,116,101], [107,769]),
  ([107,97,112,112,97], [954]),
  ([107,97,112,112,97,118], [1008]),
  ([107,98,114,101,118,101], [107,774]),
  ([107,98,114,105,110,103], [107,815]),
  ([107,99,97,114,111,110], [107,780]),
  ([107,99,101,100,105,108], [311]),
  ([107,99,105,114,99], [107,770]),
  ([107,99,121], [1082]),
  ([107,100,111,116], [107,775]),
  ([107,103,114], [954]),
  ([107,103,114,97,118,101], [107,768]),
  ([107,103,114,101,101,110], [312]),
  ([107,104,99,121], [1093]),
  ([107,104,103,114], [967]),
  ([107,106,99,121], [1116]),
  ([107,109,97,99,114], [107,772]),
  ([107,116,105,108,100,101], [107,771]),
  ([107,117,109,108], [107,776]),
  ([108,65,97,114,114], [8666]),
  ([108,65,114,114], [8656]),
  ([108,69], [8806]),
  ([108,97,99,117,116,101], [314]),
  ([108,97,99,117,116,101], [108,769]),
  ([108,97,103,114,97,110], [8466]),
  ([108,97,109,98,100,97], [955]),
  ([108,97,110,103], [9001]),
  ([108,97,113,117,111], [171]),
  ([108,97,114,114], [8592])]

/-- sgml_unicode.hpp, entries 960 to 1023 of `sgml_unicode` (lines 26-1560). -/
def pairs15 : List (List Nat × List Nat) := [
  ([108,97,114,114,50], [8647]),
  ([108,97,114,114,104,107], [8617]),
  ([108,97,114,114,108,112], [8619]),
  ([108,97,114,114,116,108], [8610]),
  ([108,98,114,101,118,101], [108,774]),
  ([108,98,114,105,110,103], [108,815]),
  ([108,99,97,114,111,110], [318]),
  ([108,99,97,114,111,110], [108,780]),
  ([108,99,101,100,105,108], [316]),
  ([108,99,101,105,108], [8968]),
  ([108,99,105,114,99], [108,770]),
  ([108,99,117,98], [123]),
  ([108,99,121], [1083]),
  ([108,100,111,116], [8918]),
  ([108,100,111,116], [108,775]),
  ([108,100,113,117,111], [8220]),
  ([108,100,113,117,111,114], [8222]),
  ([108,101], [8804]),
  ([108,101,103], [8922]),
  ([108,101,115], [8804]),
  ([108,102,108,111,111,114], [8970]),
  ([108,103], [8822]),
  ([108,103,114], [955]),
  ([108,103,114,97,118,101], [108,768]),
  ([108,104,97,114,100], [8637]),
  ([108,104,97,114,117], [8636]),
  ([108,104,98,108,107], [9604]),
  ([108,106,99,121], [1113]),
  ([108,109,97,99,114], [108,772]),
  ([108,109,105,100,111,116], [320]),
  ([108,110,69], [8808]),
  ([108,110,101], [8808]),
  ([108,110,115,105,109], [8934]),
  ([108,111,119,97,115,116], [8727]),
  ([108,111,119,98,97,114], [95]),
  ([108,111,122], [9674]),
  ([108,111,122], [10023]),
  ([108,111,122,102], [10022]),
  ([108,112,97,114], [40]),
  ([108,114,97,114,114,50], [8646]),
  ([108,114,104,97,114,50], [8651]),
  ([108,114,109], [8206]),
  ([108,115,97,113,117,111], [8249]),
  ([108,115,104], [8624]),
  ([108,115,105,109], [8818]),
  ([108,115,113,98], [91]),
  ([108,115,113,117,111], [8216]),
  ([108,115,113,117,111,114], [8218]),
  ([108,115,116,114,111,107], [322]),
  ([108,116], [60]),
  ([108,116,104,114,101,101], [8907]),
  ([108,116,105,108,100,101], [108,771]),
  ([108,116,105,109,101,115], [8905]),
  ([108,116,114,105], [9667]),
  ([108,116,114,105,101], [8884]),
  ([108,116,114,105,102], [9666]),
  ([108,117,109,108], [108,776]),
  ([108,118,110,69], [8808]),
  ([109,97,99,114], [175]),
  ([109,97,99,117,116,101], [109,769]),
  ([109,97,108,101], [9794]),
  ([109,97,108,116], [10016]),
  ([109,97,112], [8614]),
  ([109,97,114,107,101,114], [9646])]

/-- sgml_unicode.hpp, entries 1024 to 1087 of `sgml_unicode` (lines 26-1560). -/
def pairs16 : List (List Nat × List Nat) := [
  ([109,98,114,101,118,101], [109,774]),
  ([109,98,114,105,110,103], [109,815]),
  ([109,99,97,114,111,110], [109,780]),
  ([109,99,105,114,99], [109,770]),
  ([109,99,121], [1084]),
  ([109,100,97,115,104], [8212]),
  ([109,100,111,116], [109,775]),
  ([109,103,114], [956]),
  ([109,103,114,97,118,101], [109,768]),
  ([109,105,99,114,111], [181]),
  ([109,105,100], [8739]),
  ([109,105,100,100,111,116], [183]),
  ([109,105,110,117,115], [8722]),
  ([109,105,110,117,115,98], [8863]),
  ([109,108,100,114], [8230]),
  ([109,109,97,99,114], [109,772]),
  ([109,110,112,108,117,115], [8723]),
  ([109,111,100,101,108,115], [8871]),
  ([109,116,105,108,100,101], [109,771]),
  ([109,117], [956]),
  ([109,117,109,97,112], [8888]),
  ([109,117,109,108], [109,776]),
  ([110,86,68,97,115,104], [8879]),
  ([110,86,100,97,115,104], [8878]),
  ([110,97,98,108,97], [8711]),
  ([110,97,99,117,116,101], [324]),
  ([110,97,99,117,116,101], [110,769]),
  ([110,97,112], [8777]),
  ([110,97,112,111,115], [329]),
  ([110,97,116,117,114], [9838]),
  ([110,98,114,101,118,101], [110,774]),
  ([110,98,114,105,110,103], [110,815]),
  ([110,98,115,112], [160]),
  ([110,99,97,114,111,110], [328]),
  ([110,99,97,114,111,110], [110,780]),
  ([110,99,101,100,105,108], [326]),
  ([110,99,105,114,99], [110,770]),
  ([110,99,111,110,103], [8775]),
  ([110,99,121], [1085]),
  ([110,100,97,115,104], [8211]),
  ([110,100,111,116], [110,775]),
  ([110,101], [8800]),
  ([110,101,97,114,114], [8599]),
  ([110,101,113,117,105,118], [8802]),
  ([110,101,120,105,115,116], [8708]),
  ([110,103,101], [8817]),
  ([110,103,101,115], [8817]),
  ([110,103,114], [957]),
  ([110,103,114,97,118,101], [110,768]),
  ([110,103,116], [8815]),
  ([110,104,65,114,114], [8654]),
  ([110,104,97,114,114], [8622]),
  ([110,105], [8715]),
  ([110,106,99,121], [1114]),
  ([110,108,65,114,114], [8653]),
  ([110,108,97,114,114], [8602]),
  ([110,108,100,114], [8229]),
  ([110,108,101], [8816]),
  ([110,108,101,115], [8816]),
  ([110,108,116], [8814]),
  ([110,108,116,114,105], [8938]),
  ([110,108,116,114,105,101], [8940]),
  ([110,109,97,99,114], [110,772]),
  ([110,109,105,100], [8740])]

/-- sgml_unicode.hpp, entries 1088 to 1151 of `sgml_unicode` (lines 26-1560). -/
def pairs17 : List (List Nat × List Nat) := [
  ([110,111,116], [172]),
  ([110,111,116,105,110], [8713]),
  ([110,112,97,114], [8742]),
  ([110,112,114], [8832]),
  ([110,112,114,101], [8928]),
  ([110,114,65,114,114], [8655]),
  ([110,114,97,114,114], [8603]),
  ([110,114,116,114,105], [8939]),
  ([110,114,116,114,105,101], [8941]),
  ([110,115,99], [8833]),
  ([110,115,99,101], [8929]),
  ([110,115,105,109], [8769]),
  ([110,115,105,109,101], [8772]),
  ([110,115,112,97,114], [8742]),
  ([110,115,117,98], [8836]),
  ([110,115,117,98,69], [8840]),
  ([110,115,117,98,101], [8840]),
  ([110,115,117,112], [8837]),
  ([110,115,117,112,69], [8841]),
  ([110,115,117,112,101], [8841]),
  ([110,116,105,108,100,101], [241]),
  ([110,116,105,108,100,101], [110,771]),
  ([110,117], [957]),
  ([110,117,109], [35]),
  ([110,117,109,101,114,111], [8470]),
  ([110,117,109,108], [110,776]),
  ([110,117,109,115,112], [8199]),
  ([110,118,68,97,115,104], [8877]),
  ([110,118,100,97,115,104], [8876]),
  ([110,119,97,114,114], [8598]),
  ([111,83], [9416]),
  ([111,97,99,103,114], [972]),
  ([111,97,99,117,116,101], [243]),
  ([111,97,99,117,116,101], [111,769]),
  ([111,97,115,116], [8859]),
  ([111,98,114,101,118,101], [111,774]),
  ([111,98,114,105,110,103], [111,815]),
  ([111,99,97,114,111,110], [466]),
  ([111,99,97,114,111,110], [111,780]),
  ([111,99,105,114], [8858]),
  ([111,99,105,114,99], [244]),
  ([111,99,105,114,99], [111,770]),
  ([111,99,121], [1086]),
  ([111,100,97,115,104], [8861]),
  ([111,100,98,108,97,99], [337]),
  ([111,100,111,116], [8857]),
  ([111,100,111,116], [111,775]),
  ([111,100,111,116,98], [7885]),
  ([111,101,108,105,103], [339]),
  ([111,103,111,110], [731]),
  ([111,103,114], [959]),
  ([111,103,114,97,118,101], [242]),
  ([111,103,114,97,118,101], [111,768]),
  ([111,104,97,99,103,114], [974]),
  ([111,104,103,114], [969]),
  ([111,104,109], [8486]),
  ([111,108,97,114,114], [8634]),
  ([111,108,105,110,101], [8254]),
  ([111,109,97,99,114], [333]),
  ([111,109,97,99,114], [111,772]),
  ([111,109,101,103,97], [969]),
  ([111,109,105,99,114,111,110], [959]),
  ([111,109,105,110,117,115], [8854]),
  ([111,112,108,117,115], [8853])]

/-- sgml_unicode.hpp, entries 1152 to 1215 of `sgml_unicode` (lines 26-1560). -/
def pairs18 : List (List Nat × List Nat) := [
  ([111,114], [8744]),
  ([111,114,97,114,114], [8635]),
  ([111,114,100,101,114], [8500]),
  ([111,114,100,102], [170]),
  ([111,114,100,109], [186]),
  ([111,115,108,97,115,104], [248]),
  ([111,115,111,108], [8856]),
  ([111,116,105,108,100,101], [245]),
  ([111,116,105,108,100,101], [111,771]),
  ([111,116,105,109,101,115], [8855]),
  ([111,117,109,108], [246]),
  ([111,117,109,108], [111,776]),
  ([112,97,99,117,116,101], [112,769]),
  ([112,97,103,101], [12]),
  ([112,97,114], [8741]),
  ([112,97,114,97], [182]),
  ([112,97,114,116], [8706]),
  ([112,98,114,101,118,101], [112,774]),
  ([112,98,114,105,110,103], [112,815]),
  ([112,99,97,114,111,110], [112,780]),
  ([112,99,105,114,99], [112,770]),
  ([112,99,121], [1087]),
  ([112,100,111,116], [112,775]),
  ([112,101,114,99,110,116], [37]),
  ([112,101,114,105,111,100], [46]),
  ([112,101,114,109,105,108], [8240]),
  ([112,101,114,112], [8869]),
  ([112,103,114], [960]),
  ([112,103,114,97,118,101], [112,768]),
  ([112,104,103,114], [966]),
  ([112,104,105], [966]),
  ([112,104,105,115], [966]),
  ([112,104,105,118], [981]),
  ([112,104,109,109,97,116], [8499]),
  ([112,104,111,110,101], [9742]),
  ([112,105], [960]),
  ([112,105,118], [982]),
  ([112,108,97,110,99,107], [8463]),
  ([112,108,117,115], [43]),
  ([112,108,117,115,98], [8862]),
  ([112,108,117,115,100,111], [8724]),
  ([112,108,117,115,109,110], [177]),
  ([112,109,97,99,114], [112,772]),
  ([112,111,117,110,100], [163]),
  ([112,114], [8826]),
  ([112,114,101], [8828]),
  ([112,114,105,109,101], [8242]),
  ([112,114,110,115,105,109], [8936]),
  ([112,114,111,100], [8719]),
  ([112,114,111,112], [8733]),
  ([112,114,115,105,109], [8830]),
  ([112,115,103,114], [968]),
  ([112,115,105], [968]),
  ([112,116,105,108,100,101], [112,771]),
  ([112,117,109,108], [112,776]),
  ([112,117,110,99,115,112], [8200]),
  ([113,97,99,117,116,101], [113,769]),
  ([113,98,114,101,118,101], [113,774]),
  ([113,98,114,105,110,103], [113,815]),
  ([113,99,97,114,111,110], [113,780]),
  ([113,99,105,114,99], [113,770]),
  ([113,100,111,116], [113,775]),
  ([113,103,114,97,118,101], [113,768]),
  ([113,109,97,99,114], [113,772])]

/-- sgml_unicode.hpp, entries 1216 to 1279 of `sgml_unicode` (lines 26-1560). -/
def pairs19 : List (List Nat × List Nat) := [
  ([113,116,105,108,100,101], [113,771]),
  ([113,117,101,115,116], [63]),
  ([113,117,109,108], [113,776]),
  ([113,117,111,116], [34]),
  ([114,65,97,114,114], [8667]),
  ([114,65,114,114], [8658]),
  ([114,97,99,117,116,101], [341]),
  ([114,97,99,117,116,101], [114,769]),
  ([114,97,100,105,99], [8730]),
  ([114,97,110,103], [9002]),
  ([114,97,113,117,111], [187]),
  ([114,97,114,114], [8594]),
  ([114,97,114,114,50], [8649]),
  ([114,97,114,114,104,107], [8618]),
  ([114,97,114,114,108,112], [8620]),
  ([114,97,114,114,116,108], [8611]),
  ([114,97,114,114,119], [8605]),
  ([114,98,114,101,118,101], [114,774]),
  ([114,98,114,105,110,103], [114,815]),
  ([114,99,97,114,111,110], [345]),
  ([114,99,97,114,111,110], [114,780]),
  ([114,99,101,100,105,108], [343]),
  ([114,99,101,105,108], [8969]),
  ([114,99,105,114,99], [114,770]),
  ([114,99,117,98], [125]),
  ([114,99,121], [1088]),
  ([114,100,111,116], [114,775]),
  ([114,100,113,117,111], [8221]),
  ([114,100,113,117,111,114], [8220]),
  ([114,101,97,108], [8476]),
  ([114,101,99,116], [9645]),
  ([114,101,103], [174]),
  ([114,102,108,111,111,114], [8971]),
  ([114,103,114], [961]),
  ([114,103,114,97,118,101], [114,768]),
  ([114,104,97,114,100], [8641]),
  ([114,104,97,114,117], [8640]),
  ([114,104,111], [961]),
  ([114,104,111,118], [1009]),
  ([114,105,110,103], [730]),
  ([114,108,97,114,114,50], [8644]),
  ([114,108,104,97,114,50], [8652]),
  ([114,108,109], [8207]),
  ([114,109,97,99,114], [114,772]),
  ([114,112,97,114], [41]),
  ([114,115,97,113,117,111], [8250]),
  ([114,115,104], [8625]),
  ([114,115,113,98], [93]),
  ([114,115,113,117,111], [8217]),
  ([114,115,113,117,111,114], [8216]),
  ([114,116,104,114,101,101], [8908]),
  ([114,116,105,108,100,101], [114,771]),
  ([114,116,105,109,101,115], [8906]),
  ([114,116,114,105], [9657]),
  ([114,116,114,105,101], [8885]),
  ([114,116,114,105,102], [9656]),
  ([114,117,109,108], [114,776]),
  ([114,120], [8478]),
  ([115,97,99,117,116,101], [347]),
  ([115,97,99,117,116,101], [115,769]),
  ([115,97,109,97,108,103], [8720]),
  ([115,98,113,117,111], [8218]),
  ([115,98,114,101,118,101], [115,774]),
  ([115,98,114,105,110,103], [115,815])]

/-- sgml_unicode.hpp, entries 1280 to 1343 of `sgml_unicode` (lines 26-1560). -/
def pairs20 : List (List Nat × List Nat) := [
  ([115,98,115,111,108], [92]),
  ([115,99], [8827]),
  ([115,99,97,114,111,110], [353]),
  ([115,99,97,114,111,110], [115,780]),
  ([115,99,99,117,101], [8829]),
  ([115,99,101], [8829]),
  ([115,99,101,100,105,108], [351]),
  ([115,99,104,119,97], [601]),
  ([115,99,104,119,97,97,99,117,116,101], [601,769]),
  ([115,99,104,119,97,100,103,114,97,118,101], [601,783]),
  ([115,99,104,119,97,103,114,97,118,101], [601,768]),
  ([115,99,104,119,97,109,97,99,114], [601,772]),
  ([115,99,105,114,99], [349]),
  ([115,99,105,114,99], [115,770]),
  ([115,99,110,115,105,109], [8937]),
  ([115,99,115,105,109], [8831]),
  ([115,99,121], [1089]),
  ([115,100,111,116], [8901]),
  ([115,100,111,116], [115,775]),
  ([115,100,111,116,98], [8865]),
  ([115,101,99,116], [167]),
  ([115,101,109,105], [59]),
  ([115,101,116,109,110], [8726]),
  ([115,101,120,116], [10038]),
  ([115,102,103,114], [962]),
  ([115,102,114,111,119,110], [8994]),
  ([115,103,114], [963]),
  ([115,103,114,97,118,101], [115,768]),
  ([115,104,97,114,112], [9839]),
  ([115,104,99,104,99,121], [1097]),
  ([115,104,99,121], [1096]),
  ([115,104,121], [173]),
  ([115,105,103,109,97], [963]),
  ([115,105,103,109,97,102], [962]),
  ([115,105,103,109,97,118], [962]),
  ([115,105,109], [8764]),
  ([115,105,109,101], [8771]),
  ([115,109,97,99,114], [115,772]),
  ([115,109,105,108,101], [8995]),
  ([115,111,102,116,99,121], [1100]),
  ([115,111,108], [47]),
  ([115,112,97,100,101,115], [9824]),
  ([115,112,97,114], [8741]),
  ([115,113,99,97,112], [8851]),
  ([115,113,99,117,112], [8852]),
  ([115,113,115,117,98], [8847]),
  ([115,113,115,117,98,101], [8849]),
  ([115,113,115,117,112], [8848]),
  ([115,113,115,117,112,101], [8850]),
  ([115,113,117], [9633]),
  ([115,113,117,97,114,101], [9633]),
  ([115,113,117,97,114,102], [9632]),
  ([115,113,117,102], [9642]),
  ([115,115,101,116,109,110], [8726]),
  ([115,115,109,105,108,101], [8995]),
  ([115,115,116,97,114,102], [8902]),
  ([115,116,97,114], [9734]),
  ([115,116,97,114,102], [9733]),
  ([115,116,105,108,100,101], [115,771]),
  ([115,117,98], [8834]),
  ([115,117,98,69], [8838]),
  ([115,117,98,101], [8838]),
  ([115,117,98,110,69], [8842]),
  ([115,117,98,110,101], [8842])]

/-- sgml_unicode.hpp, entries 1344 to 1407 of `sgml_unicode` (lines 26-1560). -/
def pairs21 : List (List Nat × List Nat) := [
  ([115,117,109], [8721]),
  ([115,117,109,108], [115,776]),
  ([115,117,110,103], [9834]),
  ([115,117,112], [8835]),
  ([115,117,112,49], [185]),
  ([115,117,112,50], [178]),
  ([115,117,112,51], [179]),
  ([115,117,112,69], [8839]),
  ([115,117,112,101], [8839]),
  ([115,117,112,110,69], [8843]),
  ([115,117,112,110,101], [8843]),
  ([115,122,108,105,103], [223]),
  ([116,97,99,117,116,101], [116,769]),
  ([116,97,114,103,101,116], [8982]),
  ([116,97,117], [964]),
  ([116,98,114,101,118,101], [116,774]),
  ([116,98,114,105,110,103], [116,815]),
  ([116,99,97,114,111,110], [357]),
  ([116,99,97,114,111,110], [116,780]),
  ([116,99,101,100,105,108], [355]),
  ([116,99,105,114,99], [116,770]),
  ([116,99,121], [1090]),
  ([116,100,111,116], [8411]),
  ([116,100,111,116], [116,775]),
  ([116,101,108,114,101,99], [8981]),
  ([116,103,114], [964]),
  ([116,103,114,97,118,101], [116,768]),
  ([116,104,101,114,101,52], [8756]),
  ([116,104,101,116,97], [952]),
  ([116,104,101,116,97,115], [952]),
  ([116,104,101,116,97,115,121,109], [977]),
  ([116,104,101,116,97,118], [977]),
  ([116,104,103,114], [952]),
  ([116,104,105,110,115,112], [8201]),
  ([116,104,107,97,112], [8776]),
  ([116,104,107,115,105,109], [8764]),
  ([116,104,111,114,110], [254]),
  ([116,105,108,100,101], [732]),
  ([116,105,109,101,115], [215]),
  ([116,105,109,101,115,98], [8864]),
  ([116,109,97,99,114], [116,772]),
  ([116,111,112], [8868]),
  ([116,112,114,105,109,101], [8244]),
  ([116,114,97,100,101], [8482]),
  ([116,114,105,101], [8796]),
  ([116,115,99,121], [1094]),
  ([116,115,104,99,121], [1115]),
  ([116,115,116,114,111,107], [359]),
  ([116,116,105,108,100,101], [116,771]),
  ([116,117,109,108], [116,776]),
  ([116,119,105,120,116], [8812]),
  ([117,65,114,114], [8657]),
  ([117,97,99,103,114], [973]),
  ([117,97,99,117,116,101], [250]),
  ([117,97,99,117,116,101], [117,769]),
  ([117,97,114,114], [8593]),
  ([117,97,114,114,50], [8648]),
  ([117,98,114,99,121], [1118]),
  ([117,98,114,101,118,101], [365]),
  ([117,98,114,101,118,101], [117,774]),
  ([117,98,114,105,110,103], [117,815]),
  ([117,99,97,114,111,110], [117,780]),
  ([117,99,105,114,99], [251]),
  ([117,99,105,114,99], [117,770])]

/-- sgml_unicode.hpp, entries 1408 to 1471 of `sgml_unicode` (lines 26-1560). -/
def pairs22 : List (List Nat × List Nat) := [
  ([117,99,121], [1091]),
  ([117,100,98,108,97,99], [369]),
  ([117,100,105,97,103,114], [944]),
  ([117,100,105,103,114], [971]),
  ([117,100,111,116], [117,775]),
  ([117,103,114], [965]),
  ([117,103,114,97,118,101], [249]),
  ([117,103,114,97,118,101], [117,768]),
  ([117,104,97,114,108], [8639]),
  ([117,104,97,114,114], [8638]),
  ([117,104,98,108,107], [9600]),
  ([117,108,99,111,114,110], [8988]),
  ([117,108,99,114,111,112], [8975]),
  ([117,109,97,99,114], [363]),
  ([117,109,97,99,114], [117,772]),
  ([117,109,108], [168]),
  ([117,111,103,111,110], [371]),
  ([117,112,108,117,115], [8846]),
  ([117,112,115,105], [965]),
  ([117,112,115,105,104], [978]),
  ([117,112,115,105,108,111,110], [965]),
  ([117,114,99,111,114,110], [8989]),
  ([117,114,99,114,111,112], [8974]),
  ([117,114,105,110,103], [367]),
  ([117,116,105,108,100,101], [361]),
  ([117,116,105,108,100,101], [117,771]),
  ([117,116,114,105], [9653]),
  ([117,116,114,105,102], [9652]),
  ([117,117,109,108], [252]),
  ([117,117,109,108], [117,776]),
  ([118,65,114,114], [8661]),
  ([118,68,97,115,104], [8872]),
  ([118,97,99,117,116,101], [118,769]),
  ([118,97,114,114], [8597]),
  ([118,98,114,101,118,101], [118,774]),
  ([118,98,114,105,110,103], [118,815]),
  ([118,99,97,114,111,110], [118,780]),
  ([118,99,105,114,99], [118,770]),
  ([118,99,121], [1074]),
  ([118,100,97,115,104], [8866]),
  ([118,100,111,116], [118,775]),
  ([118,101,101,98,97,114], [8891]),
  ([118,101,108,108,105,112], [8942]),
  ([118,101,114,98,97,114], [124]),
  ([118,103,114,97,118,101], [118,768]),
  ([118,108,116,114,105], [8882]),
  ([118,109,97,99,114], [118,772]),
  ([118,112,114,105,109,101], [8242]),
  ([118,112,114,111,112], [8733]),
  ([118,114,116,114,105], [8883]),
  ([118,115,117,98,110,69], [8842]),
  ([118,115,117,98,110,101], [8842]),
  ([118,115,117,112,110,69], [8843]),
  ([118,115,117,112,110,101], [8843]),
  ([118,116,97,98], [11]),
  ([118,116,105,108,100,101], [118,771]),
  ([118,117,109,108], [118,776]),
  ([119,97,99,117,116,101], [119,769]),
  ([119,98,114,101,118,101], [119,774]),
  ([119,98,114,105,110,103], [119,815]),
  ([119,99,97,114,111,110], [119,780]),
  ([119,99,105,114,99], [373]),
  ([119,99,105,114,99], [119,770]),
  ([119,100,111,116], [119,775])]

/-- sgml_unicode.hpp, entries 1472 to 1534 of `sgml_unicode` (lines 26-1560). -/
def pairs23 : List (List Nat × List Nat) := [
  ([119,101,100,103,101,113], [8793]),
  ([119,101,105,101,114,112], [8472]),
  ([119,103,114,97,118,101], [119,768]),
  ([119,109,97,99,114], [119,772]),
  ([119,114,101,97,116,104], [8768]),
  ([119,116,105,108,100,101], [119,771]),
  ([119,117,109,108], [119,776]),
  ([120,97,99,117,116,101], [120,769]),
  ([120,98,114,101,118,101], [120,774]),
  ([120,98,114,105,110,103], [120,815]),
  ([120,99,97,114,111,110], [120,780]),
  ([120,99,105,114,99], [9675]),
  ([120,99,105,114,99], [120,770]),
  ([120,100,111,116], [120,775]),
  ([120,100,116,114,105], [9661]),
  ([120,103,114], [958]),
  ([120,103,114,97,118,101], [120,768]),
  ([120,104,65,114,114], [8596]),
  ([120,104,97,114,114], [8596]),
  ([120,105], [958]),
  ([120,108,65,114,114], [8656]),
  ([120,109,97,99,114], [120,772]),
  ([120,114,65,114,114], [8658]),
  ([120,116,105,108,100,101], [120,771]),
  ([120,117,109,108], [120,776]),
  ([120,117,116,114,105], [9651]),
  ([121,97,99,117,116,101], [253]),
  ([121,97,99,117,116,101], [121,769]),
  ([121,97,99,121], [1103]),
  ([121,98,114,101,118,101], [121,774]),
  ([121,98,114,105,110,103], [121,815]),
  ([121,99,97,114,111,110], [121,780]),
  ([121,99,105,114,99], [375]),
  ([121,99,105,114,99], [121,770]),
  ([121,99,121], [1099]),
  ([121,100,111,116], [121,775]),
  ([121,101,110], [165]),
  ([121,103,114,97,118,101], [121,768]),
  ([121,105,99,121], [1111]),
  ([121,109,97,99,114], [121,772]),
  ([121,116,105,108,100,101], [121,771]),
  ([121,117,99,121], [1102]),
  ([121,117,109,108], [255]),
  ([121,117,109,108], [121,776]),
  ([122,97,99,117,116,101], [378]),
  ([122,97,99,117,116,101], [122,769]),
  ([122,98,114,101,118,101], [122,774]),
  ([122,98,114,105,110,103], [122,815]),
  ([122,99,97,114,111,110], [382]),
  ([122,99,97,114,111,110], [122,780]),
  ([122,99,105,114,99], [122,770]),
  ([122,99,121], [1079]),
  ([122,100,111,116], [380]),
  ([122,100,111,116], [122,775]),
  ([122,101,116,97], [950]),
  ([122,103,114], [950]),
  ([122,103,114,97,118,101], [122,768]),
  ([122,104,99,121], [1078]),
  ([122,109,97,99,114], [122,772]),
  ([122,116,105,108,100,101], [122,771]),
  ([122,117,109,108], [122,776]),
  ([122,119,106], [8205]),
  ([122,119,110,106], [8204])]

/-- `sgml_unicode`, sgml_unicode.hpp 25-1561: entity name and Unicode text, without terminators. -/
def pairChunks : List (List (List Nat × List Nat)) := [pairs0, pairs1, pairs2, pairs3, pairs4, pairs5, pairs6, pairs7, pairs8, pairs9, pairs10, pairs11, pairs12, pairs13, pairs14, pairs15, pairs16, pairs17, pairs18, pairs19, pairs20, pairs21, pairs22, pairs23]
@[inherit_doc pairChunks] def pairs : List (List Nat × List Nat) := pairChunks.flatten

/-- sgml_unicode.hpp, entries 0 to 63 of `unicode_sgml` (lines 1564-3098). -/
def order0 : List Nat := [1462, 1165, 781, 1219, 1111, 722, 1175, 497, 507, 998, 1260, 510, 1190, 667, 878, 1176, 1320, 665, 1301, 1009, 771, 851, 1217, 668, 14, 3, 9, 21, 17, 5, 11, 23, 7, 6, 34, 24, 29, 36, 35, 26, 31, 37, 28, 27, 51, 40, 48, 54, 53, 42, 50, 55, 45, 43, 71, 60, 66, 76, 72, 62, 68, 77, 65, 63]

/-- sgml_unicode.hpp, entries 64 to 127 of `unicode_sgml` (lines 1564-3098). -/
def order1 : List Nat := [97, 84, 90, 103, 99, 85, 93, 105, 88, 86, 113, 106, 110, 115, 114, 107, 112, 116, 109, 108, 132, 118, 126, 135, 133, 121, 129, 136, 123, 122, 145, 138, 143, 148, 146, 139, 144, 149, 141, 140, 167, 155, 160, 173, 169, 156, 164, 176, 158, 157, 185, 177, 182, 188, 186, 178, 184, 190, 180, 179, 204, 194, 200, 206]

/-- sgml_unicode.hpp, entries 128 to 191 of `unicode_sgml` (lines 1564-3098). -/
def order2 : List Nat := [205, 196, 202, 207, 198, 197, 222, 210, 218, 228, 224, 213, 220, 229, 216, 214, 238, 230, 234, 240, 239, 231, 236, 242, 233, 232, 255, 245, 251, 258, 256, 246, 253, 260, 249, 247, 279, 266, 272, 286, 281, 267, 275, 288, 270, 268, 299, 291, 295, 305, 302, 292, 297, 306, 294, 293, 313, 307, 311, 315, 314, 308, 312, 316]

/-- sgml_unicode.hpp, entries 192 to 255 of `unicode_sgml` (lines 1564-3098). -/
def order3 : List Nat := [310, 309, 329, 318, 325, 332, 331, 320, 327, 333, 323, 321, 349, 338, 345, 352, 351, 339, 347, 354, 342, 340, 371, 360, 367, 375, 373, 362, 369, 376, 365, 363, 393, 379, 386, 401, 395, 382, 390, 403, 384, 383, 413, 404, 408, 415, 414, 405, 411, 416, 407, 406, 425, 418, 423, 427, 426, 419, 424, 428, 421, 420, 436, 429]

/-- sgml_unicode.hpp, entries 256 to 319 of `unicode_sgml` (lines 1564-3098). -/
def order4 : List Nat := [433, 439, 438, 430, 434, 440, 432, 431, 453, 445, 450, 455, 454, 446, 452, 457, 448, 447, 471, 460, 465, 473, 472, 461, 468, 474, 464, 462, 1005, 629, 1280, 1263, 994, 848, 490, 477, 483, 513, 495, 479, 486, 515, 481, 480, 575, 559, 564, 630, 581, 561, 567, 632, 563, 562, 651, 636, 646, 678, 664, 640, 648, 682, 643, 641]

/-- sgml_unicode.hpp, entries 320 to 383 of `unicode_sgml` (lines 1564-3098). -/
def order5 : List Nat := [708, 690, 702, 729, 721, 698, 704, 732, 701, 699, 755, 737, 744, 777, 760, 738, 748, 779, 741, 739, 794, 783, 787, 819, 798, 784, 789, 820, 786, 785, 840, 823, 832, 852, 844, 827, 835, 853, 829, 828, 871, 856, 867, 875, 872, 863, 868, 876, 865, 864, 896, 881, 886, 913, 899, 882, 890, 916, 884, 883, 925, 917, 922, 928]

/-- sgml_unicode.hpp, entries 384 to 447 of `unicode_sgml` (lines 1564-3098). -/
def order6 : List Nat := [926, 918, 924, 930, 920, 919, 942, 931, 938, 948, 947, 934, 940, 949, 936, 935, 983, 954, 970, 1011, 988, 964, 974, 1016, 967, 965, 1032, 1019, 1027, 1042, 1039, 1024, 1030, 1045, 1026, 1025, 1072, 1050, 1060, 1109, 1086, 1054, 1064, 1113, 1058, 1055, 1140, 1121, 1129, 1160, 1147, 1123, 1134, 1163, 1126, 1124, 1180, 1164, 1172, 1205, 1194, 1169, 1174, 1206]

/-- sgml_unicode.hpp, entries 448 to 511 of `unicode_sgml` (lines 1564-3098). -/
def order7 : List Nat := [1171, 1170, 1214, 1208, 1212, 1216, 1215, 1209, 1213, 1218, 1211, 1210, 1250, 1223, 1239, 1267, 1259, 1233, 1242, 1272, 1236, 1234, 1307, 1275, 1293, 1338, 1317, 1278, 1298, 1345, 1283, 1279, 1370, 1356, 1364, 1392, 1384, 1359, 1367, 1393, 1362, 1360, 1415, 1398, 1407, 1433, 1422, 1403, 1412, 1437, 1405, 1404, 1452, 1440, 1445, 1463, 1454, 1442, 1448, 1464, 1444, 1443, 1474, 1465]

/-- sgml_unicode.hpp, entries 512 to 575 of `unicode_sgml` (lines 1564-3098). -/
def order8 : List Nat := [1470, 1477, 1475, 1466, 1471, 1478, 1468, 1467, 1488, 1479, 1484, 1495, 1493, 1480, 1485, 1496, 1482, 1481, 1509, 1499, 1505, 1512, 1511, 1501, 1507, 1515, 1503, 1502, 1528, 1517, 1522, 1531, 1530, 1518, 1525, 1532, 1521, 1519, 971, 1451, 1240, 1056, 892, 650, 1195, 686, 1508, 626, 1300, 73, 714, 1423, 674, 1155, 958, 1088, 1311, 1247, 1018, 705, 1193, 1349, 1350, 484]

/-- sgml_unicode.hpp, entries 576 to 639 of `unicode_sgml` (lines 1564-3098). -/
def order9 : List Nat := [1033, 1167, 1035, 649, 1348, 1156, 1226, 804, 802, 858, 810, 910, 13, 2, 8, 20, 22, 19, 0, 46, 96, 83, 89, 104, 166, 154, 159, 175, 81, 257, 278, 265, 271, 285, 287, 1382, 284, 392, 378, 385, 402, 444, 356, 1355, 489, 476, 482, 512, 514, 509, 487, 644, 754, 736, 743, 778, 895, 880, 885, 915, 776, 1108, 1139, 1120]

/-- sgml_unicode.hpp, entries 640 to 703 of `unicode_sgml` (lines 1564-3098). -/
def order10 : List Nat := [1128, 1159, 1162, 715, 1157, 1414, 1397, 1406, 1436, 1498, 1380, 1514, 16, 494, 4, 478, 18, 504, 39, 635, 47, 645, 49, 647, 44, 642, 64, 700, 75, 728, 98, 759, 92, 747, 100, 767, 87, 740, 125, 831, 120, 826, 128, 834, 124, 830, 142, 866, 147, 874, 172, 912, 168, 898, 170, 908, 163, 903, 904, 151, 897, 181, 921, 199]

/-- sgml_unicode.hpp, entries 704 to 767 of `unicode_sgml` (lines 1564-3098). -/
def order11 : List Nat := [937, 943, 209, 953, 217, 968, 215, 966, 225, 989, 226, 1008, 244, 1049, 250, 1059, 248, 1057, 1052, 80, 765, 280, 1146, 274, 1132, 261, 1136, 317, 1222, 324, 1237, 322, 1235, 337, 1274, 344, 1292, 343, 1286, 341, 1282, 366, 1363, 364, 1361, 374, 1391, 400, 1432, 394, 1421, 381, 1402, 399, 1431, 388, 1409, 396, 1424, 422, 1469, 449, 1504, 456]

/-- sgml_unicode.hpp, entries 768 to 831 of `unicode_sgml` (lines 1564-3098). -/
def order12 : List Nat := [459, 1516, 467, 1524, 463, 1520, 799, 269, 1125, 822, 1287, 1290, 1288, 1291, 1289, 508, 656, 639, 625, 723, 1255, 1137, 1381, 697, 1, 82, 78, 153, 264, 377, 262, 888, 12, 15, 32, 33, 119, 131, 517, 69, 70, 516, 95, 101, 469, 470, 79, 102, 357, 372, 524, 165, 171, 195, 203, 211, 221, 518, 237, 241, 254, 259, 435, 437]

/-- sgml_unicode.hpp, entries 832 to 895 of `unicode_sgml` (lines 1564-3098). -/
def order13 : List Nat := [526, 277, 283, 298, 301, 521, 328, 330, 348, 350, 523, 361, 370, 391, 397, 398, 525, 289, 300, 520, 52, 192, 290, 304, 522, 263, 282, 519, 162, 389, 475, 735, 750, 879, 1410, 488, 493, 527, 528, 572, 574, 535, 824, 839, 530, 706, 707, 531, 532, 533, 753, 768, 769, 558, 1526, 1527, 534, 751, 775, 554, 1372, 1373, 1376, 537]

/-- sgml_unicode.hpp, entries 896 to 959 of `unicode_sgml` (lines 1564-3098). -/
def order14 : List Nat := [894, 909, 538, 932, 941, 540, 956, 982, 541, 1031, 1043, 542, 1071, 1110, 557, 1487, 1491, 1138, 1149, 546, 1179, 1187, 549, 1249, 1253, 552, 1304, 1313, 1314, 551, 1306, 1312, 553, 1358, 1369, 556, 1413, 1426, 1428, 544, 1181, 1182, 1183, 529, 654, 945, 548, 1203, 1204, 1142, 1148, 889, 1411, 1119, 1396, 543, 1141, 555, 1374, 1375, 1427, 545, 1184, 547]

/-- sgml_unicode.hpp, entries 960 to 1023 of `unicode_sgml` (lines 1564-3098). -/
def order15 : List Nat := [1188, 536, 825, 539, 933, 550, 1254, 152, 57, 117, 189, 58, 174, 442, 187, 208, 243, 358, 193, 380, 59, 10, 30, 409, 127, 67, 150, 458, 466, 161, 183, 201, 219, 235, 252, 273, 296, 326, 346, 368, 387, 111, 191, 359, 38, 335, 334, 137, 451, 336, 91, 443, 441, 485, 566, 1446, 833, 703, 891, 1529, 1523, 887, 923, 939]

/-- sgml_unicode.hpp, entries 1024 to 1087 of `unicode_sgml` (lines 1564-3098). -/
def order16 : List Nat := [972, 1028, 1062, 1130, 1173, 1241, 1296, 1365, 1408, 788, 944, 1389, 652, 1310, 1309, 860, 1506, 1319, 746, 1513, 1500, 907, 717, 842, 929, 727, 914, 1510, 927, 987, 1077, 1390, 946, 1401, 733, 94, 749, 276, 1135, 766, 762, 763, 764, 1114, 1207, 1377, 857, 1534, 1533, 1001, 1258, 695, 1063, 1029, 873, 412, 1006, 1265, 1264, 1007, 1277, 975, 1244, 1243]

/-- sgml_unicode.hpp, entries 1088 to 1151 of `unicode_sgml` (lines 1564-3098). -/
def order17 : List Nat := [568, 976, 691, 61, 631, 1080, 870, 1038, 1177, 1198, 1455, 303, 1386, 624, 1002, 1261, 1145, 638, 877, 817, 780, 1366, 74, 901, 859, 1189, 900, 955, 757, 1112, 675, 1473, 1245, 1273, 1387, 1143, 503, 571, 1185, 1154, 491, 492, 573, 841, 692, 803, 808, 805, 809, 811, 813, 806, 814, 807, 812, 815, 816, 959, 1399, 1227, 693, 861, 1489, 1490]

/-- sgml_unicode.hpp, entries 1152 to 1215 of `unicode_sgml` (lines 1564-3098). -/
def order18 : List Nat := [1441, 1117, 1066, 724, 718, 1079, 1094, 1232, 212, 319, 963, 1231, 1022, 961, 1229, 962, 1230, 862, 1075, 1003, 1262, 676, 681, 685, 1144, 1153, 985, 984, 1417, 1416, 1252, 1251, 710, 709, 1256, 999, 960, 1400, 1228, 694, 1000, 1257, 1078, 1074, 1093, 951, 1492, 1395, 1221, 1494, 689, 855, 893, 1438, 950, 1220, 800, 669, 1168, 782, 1068, 761, 1048, 911]

/-- sgml_unicode.hpp, entries 1216 to 1279 of `unicode_sgml` (lines 1564-3098). -/
def order19 : List Nat := [1089, 770, 1076, 570, 1200, 496, 673, 1276, 1344, 1036, 1040, 1192, 1302, 1333, 993, 670, 1224, 1201, 1456, 902, 500, 499, 501, 502, 1034, 1087, 1166, 1322, 1090, 1101, 498, 1152, 637, 683, 905, 672, 1371, 569, 1315, 1379, 627, 1476, 1099, 1316, 1100, 671, 1061, 505, 511, 1378, 1051, 506, 565, 633, 634, 774, 734, 752, 773, 666, 745, 742, 662, 1472]

/-- sgml_unicode.hpp, entries 1280 to 1343 of `unicode_sgml` (lines 1564-3098). -/
def order20 : List Nat := [1388, 1065, 772, 1067, 977, 979, 836, 838, 952, 821, 990, 991, 1017, 845, 846, 854, 227, 134, 1394, 1083, 1073, 1081, 1082, 1069, 1070, 1004, 850, 981, 843, 1196, 1281, 684, 1197, 1284, 1285, 1202, 1295, 1091, 1097, 1339, 1347, 1102, 1105, 1340, 1341, 1351, 1352, 1103, 1104, 1106, 1107, 1342, 1343, 1458, 1459, 1353, 1354, 1460, 1461, 1425, 1325, 1327, 1326, 1328]

/-- sgml_unicode.hpp, entries 1344 to 1407 of `unicode_sgml` (lines 1564-3098). -/
def order21 : List Nat := [1323, 1324, 1151, 1150, 1161, 1158, 1133, 1127, 1122, 1131, 1191, 1037, 1383, 1299, 1447, 696, 1385, 582, 1178, 1041, 1439, 410, 417, 1116, 1115, 1047, 1046, 1453, 1457, 1014, 1270, 1044, 906, 1449, 560, 711, 1297, 1335, 716, 583, 1012, 1268, 1010, 1266, 628, 687, 688, 353, 355, 41, 56, 801, 973, 849, 223, 130, 978, 837, 758, 756, 679, 680, 1092, 1098]

/-- sgml_unicode.hpp, entries 1408 to 1471 of `unicode_sgml` (lines 1564-3098). -/
def order22 : List Nat := [992, 847, 1199, 1294, 1084, 1095, 1085, 1096, 1450, 25, 969, 1238, 980, 1248, 726, 720, 1430, 1420, 1368, 1357, 1419, 1429, 719, 725, 818, 1305, 1318, 1334, 957, 1225, 576, 1118, 608, 617, 607, 606, 616, 615, 623, 622, 611, 612, 621, 588, 597, 605, 587, 585, 604, 586, 584, 614, 596, 594, 613, 595, 593, 620, 603, 600, 619, 602, 599, 591]

/-- sgml_unicode.hpp, entries 1472 to 1534 of `unicode_sgml` (lines 1564-3098). -/
def order23 : List Nat := [609, 589, 592, 610, 590, 618, 601, 598, 1418, 986, 580, 578, 577, 579, 1331, 1329, 1330, 1332, 1246, 1023, 1497, 1435, 1434, 1271, 1269, 1486, 731, 730, 1015, 1013, 712, 995, 655, 1483, 657, 659, 660, 658, 661, 1337, 1336, 1186, 790, 1020, 1321, 663, 869, 713, 1346, 796, 1053, 1308, 653, 677, 1021, 997, 996, 1303, 792, 795, 797, 791, 793]

/-- `unicode_sgml`, sgml_unicode.hpp 1563-3099. -/
def orderChunks : List (List Nat) := [order0, order1, order2, order3, order4, order5, order6, order7, order8, order9, order10, order11, order12, order13, order14, order15, order16, order17, order18, order19, order20, order21, order22, order23]
@[inherit_doc orderChunks] def order : List Nat := orderChunks.flatten

end Verif.Sgml

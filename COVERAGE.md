# Functions of /repo and the model modules that cite them

Generated by `tools/coverage.py`.  A function counts as modelled if a definition of `lean/Verif/Model` cites its lines.
733 of 758 functions are cited.


## full-moon/src/ast/compound.rs

| function | lines | cited by |
|---|---|---|
| `token` | 46–68 | Api |
| `from_token` | 70–104 | Stmt |
| `new` | 119–125 | Build |
| `lhs` | 128–130 | Builders |
| `compound_operator` | 133–135 | Builders |
| `rhs` | 138–140 | Builders |
| `with_lhs` | 143–145 | Builders |
| `with_compound_operator` | 148–153 | Builders |
| `with_rhs` | 156–158 | Builders |

## full-moon/src/ast/lua52.rs

| function | lines | cited by |
|---|---|---|
| `new` | 22–27 | Build |
| `goto_token` | 30–32 | Builders |
| `label_name` | 35–37 | Builders |
| `with_goto_token` | 40–42 | Builders |
| `with_label_name` | 45–47 | Builders |
| `new` | 62–68 | Build |
| `left_colons` | 71–73 | Builders |
| `name` | 76–78 | Builders |
| `right_colons` | 81–83 | Builders |
| `with_left_colons` | 86–91 | Builders |
| `with_name` | 94–96 | Builders |
| `with_right_colons` | 99–104 | Builders |

## full-moon/src/ast/lua54.rs

| function | lines | cited by |
|---|---|---|
| `new` | 24–32 | Build |
| `name` | 35–37 | Builders |
| `brackets` | 40–42 | Builders |
| `with_name` | 45–47 | Builders |
| `with_brackets` | 50–52 | Builders |

## full-moon/src/ast/luau.rs

| function | lines | cited by |
|---|---|---|
| `new` | 195–197 | Build |
| `with_types` | 200–202 | Builders |
| `with_leading` | 205–207 | Builders |
| `leading` | 210–212 | Builders |
| `types` | 215–217 | Builders |
| `new` | 231–233 | Build |
| `with_types` | 236–238 | Builders |
| `with_leading` | 241–243 | Builders |
| `leading` | 246–248 | Builders |
| `types` | 251–253 | Builders |
| `new` | 295–302 | Build |
| `access` | 305–307 | Builders |
| `key` | 310–312 | Builders |
| `colon_token` | 315–317 | Builders |
| `value` | 320–322 | Builders |
| `with_key` | 325–327 | Builders |
| `with_colon_token` | 330–335 | Builders |
| `with_access` | 338–340 | Builders |
| `with_value` | 343–345 | Builders |
| `new` | 379–384 | Build |
| `assertion_op` | 387–389 | Builders |
| `cast_to` | 392–394 | Builders |
| `with_assertion_op` | 397–402 | Builders |
| `with_cast_to` | 405–407 | Builders |
| `new` | 431–445 | Build |
| `type_token` | 448–450 | Builders |
| `type_name` | 453–455 | Builders |
| `generics` | 458–460 | Builders |
| `equal_token` | 463–465 | Builders |
| `type_definition` | 468–470 | Builders |
| `with_type_token` | 473–475 | Builders |
| `with_type_name` | 478–483 | Builders |
| `with_generics` | 486–488 | Builders |
| `with_equal_token` | 491–496 | Builders |
| `with_type_definition` | 499–504 | Builders |
| `new` | 541–546 | Build |
| `parameter` | 549–551 | Builders |
| `equals` | 554–556 | Builders |
| `default_type` | 559–561 | Builders |
| `with_parameter` | 564–566 | Builders |
| `with_default` | 569–571 | Builders |
| `new` | 586–594 | Build |
| `arrows` | 597–599 | Builders |
| `generics` | 602–604 | Builders |
| `with_arrows` | 607–609 | Builders |
| `with_generics` | 612–614 | Builders |
| `default` | 618–620 | Build |
| `new` | 634–639 | Build |
| `punctuation` | 643–645 | Builders |
| `type_info` | 648–650 | Builders |
| `with_punctuation` | 653–658 | Builders |
| `with_type_info` | 661–663 | Builders |
| `new` | 676–681 | Build |
| `name` | 684–686 | Builders |
| `type_info` | 689–691 | Builders |
| `with_name` | 694–696 | Builders |
| `with_type_info` | 699–701 | Builders |
| `fmt` | 705–711 | Node |
| `new` | 725–736 | Build |
| `export_token` | 739–741 | Builders |
| `type_declaration` | 744–746 | Builders |
| `with_export_token` | 749–754 | Builders |
| `with_type_declaration` | 757–762 | Builders |
| `new` | 780–793 | Build |
| `type_token` | 796–798 | Builders |
| `function_token` | 801–803 | Builders |
| `function_name` | 806–808 | Builders |
| `function_body` | 811–813 | Builders |
| `with_type_token` | 816–818 | Builders |
| `with_function_token` | 821–826 | Builders |
| `with_function_name` | 829–834 | Builders |
| `with_function_body` | 837–842 | Builders |
| `new` | 856–867 | Build |
| `export_token` | 870–872 | Builders |
| `type_function` | 875–877 | Builders |
| `with_export_token` | 880–885 | Builders |
| `with_type_function` | 888–893 | Builders |
| `new` | 937–951 | Build |
| `if_token` | 954–956 | Builders |
| `condition` | 959–961 | Builders |
| `then_token` | 964–966 | Builders |
| `if_expression` | 969–971 | Builders |
| `else_token` | 974–976 | Builders |
| `else_if_expressions` | 980–982 | Builders |
| `else_expression` | 985–987 | Builders |
| `with_if_token` | 990–992 | Builders |
| `with_condition` | 995–1000 | Builders |
| `with_then_token` | 1003–1005 | Builders |
| `with_if_expression` | 1008–1013 | Builders |
| `with_else_if` | 1016–1021 | Builders |
| `with_else_token` | 1024–1026 | Builders |
| `with_else` | 1029–1034 | Builders |
| `new` | 1050–1057 | Build |
| `else_if_token` | 1060–1062 | Builders |
| `condition` | 1065–1067 | Builders |
| `then_token` | 1070–1072 | Builders |
| `expression` | 1075–1077 | Builders |
| `with_else_if_token` | 1080–1085 | Builders |
| `with_condition` | 1088–1090 | Builders |
| `with_then_token` | 1093–1095 | Builders |
| `with_block` | 1098–1100 | Builders |
| `new` | 1121–1126 | Build |
| `segments` | 1129–1131 | Builders |
| `last_string` | 1134–1136 | Builders |
| `expressions` | 1139–1144 | Api |
| `with_segments` | 1147–1149 | Builders |
| `with_last_string` | 1152–1157 | Builders |
| `visit` | 1174–1177 | Visit |
| `visit_mut` | 1181–1186 | VisitChanging |
| `next` | 1197–1206 | Api |
| `new` | 1220–1225 | Build |
| `at_sign` | 1228–1230 | Builders |
| `name` | 1233–1235 | Builders |
| `with_at_sign` | 1238–1240 | Builders |
| `with_name` | 1243–1245 | Builders |
| `new` | 1276–1290 | Build |
| `outer_arrows` | 1293–1295 | Builders |
| `inner_arrows` | 1298–1300 | Builders |
| `types` | 1303–1305 | Builders |
| `with_outer_arrows` | 1308–1313 | Builders |
| `with_inner_arrows` | 1316–1321 | Builders |
| `with_types` | 1324–1326 | Builders |

## full-moon/src/ast/luau_visitors.rs

| function | lines | cited by |
|---|---|---|
| `visit` | 12–113 | Visit |
| `visit_mut` | 117–273 | Visit |
| `visit` | 277–284 | Visit |
| `visit_mut` | 288–295 | Visit |
| `visit` | 299–306 | Visit |
| `visit_mut` | 310–317 | Visit |
| `visit` | 321–339 | Visit |
| `visit_mut` | 343–367 | Visit |
| `visit` | 371–384 | Visit |
| `visit_mut` | 388–405 | **not modelled** |
| `visit` | 410–418 | Visit |
| `visit_mut` | 422–431 | Visit |

## full-moon/src/ast/mod.rs

| function | lines | cited by |
|---|---|---|
| `new` | 67–72 | Build, State |
| `stmts` | 78–80 | Builders |
| `stmts_with_semicolon` | 84–86 | Builders |
| `last_stmt` | 89–91 | Builders |
| `last_stmt_with_semicolon` | 94–96 | Builders |
| `with_stmts` | 100–102 | Builders |
| `with_last_stmt` | 106–108 | Builders |
| `merge_blocks` | 110–116 | Parse |
| `new` | 146–151 | Build |
| `token` | 154–156 | Builders |
| `returns` | 159–161 | Builders |
| `with_token` | 164–166 | Builders |
| `with_returns` | 169–171 | Builders |
| `default` | 175–177 | Build |
| `new` | 245–253 | Build |
| `braces` | 256–258 | Builders |
| `fields` | 261–263 | Builders |
| `with_braces` | 266–268 | Builders |
| `with_fields` | 271–273 | Builders |
| `default` | 277–279 | Build |
| `new` | 299–306 | Build |
| `attributes` | 310–312 | Builders |
| `function_token` | 315–317 | Builders |
| `body` | 320–322 | Builders |
| `with_attributes` | 326–328 | Builders |
| `with_function_token` | 331–336 | Builders |
| `with_body` | 339–341 | Builders |
| `default` | 345–347 | Build |
| `empty` | 576–585 | Build, State |
| `new` | 610–626 | Build |
| `for_token` | 629–631 | Builders |
| `index_variable` | 634–636 | Builders |
| `equal_token` | 639–641 | Builders |
| `start` | 644–646 | Builders |
| `start_end_comma` | 651–653 | Builders |
| `end` | 656–658 | Builders |
| `end_step_comma` | 663–665 | Builders |
| `step` | 668–670 | Builders |
| `do_token` | 673–675 | Builders |
| `block` | 678–680 | Builders |
| `end_token` | 683–685 | Builders |
| `type_specifier` | 692–694 | Builders |
| `with_for_token` | 697–699 | Builders |
| `with_index_variable` | 702–707 | Builders |
| `with_equal_token` | 710–715 | Builders |
| `with_start` | 718–720 | Builders |
| `with_start_end_comma` | 723–728 | Builders |
| `with_end` | 731–733 | Builders |
| `with_end_step_comma` | 736–741 | Builders |
| `with_step` | 744–746 | Builders |
| `with_do_token` | 749–751 | Builders |
| `with_block` | 754–756 | Builders |
| `with_end_token` | 759–761 | Builders |
| `with_type_specifier` | 766–771 | Builders |
| `fmt` | 776–793 | Node |
| `fmt` | 796–812 | Node |
| `new` | 836–848 | Build |
| `for_token` | 851–853 | Builders |
| `names` | 857–859 | Builders |
| `in_token` | 862–864 | Builders |
| `expressions` | 868–870 | Builders |
| `do_token` | 873–875 | Builders |
| `block` | 878–880 | Builders |
| `end_token` | 883–885 | Builders |
| `type_specifiers` | 892–894 | Builders |
| `with_for_token` | 897–899 | Builders |
| `with_names` | 902–904 | Builders |
| `with_in_token` | 907–909 | Builders |
| `with_expressions` | 912–914 | Builders |
| `with_do_token` | 917–919 | Builders |
| `with_block` | 922–924 | Builders |
| `with_end_token` | 927–929 | Builders |
| `with_type_specifiers` | 934–939 | Builders |
| `fmt` | 944–956 | Node |
| `fmt` | 959–971 | Node |
| `new` | 1002–1013 | Build, State |
| `if_token` | 1016–1018 | Builders |
| `condition` | 1021–1023 | Builders |
| `then_token` | 1026–1028 | Builders |
| `block` | 1031–1033 | Builders |
| `else_token` | 1036–1038 | Builders |
| `else_if` | 1043–1045 | Builders |
| `else_block` | 1048–1050 | Builders |
| `end_token` | 1053–1055 | Builders |
| `with_if_token` | 1058–1060 | Builders |
| `with_condition` | 1063–1065 | Builders |
| `with_then_token` | 1068–1070 | Builders |
| `with_block` | 1073–1075 | Builders |
| `with_else_if` | 1078–1080 | Builders, State |
| `with_else_token` | 1083–1085 | Builders |
| `with_else` | 1088–1090 | Builders |
| `with_end_token` | 1093–1095 | Builders |
| `new` | 1111–1118 | Build |
| `else_if_token` | 1121–1123 | Builders |
| `condition` | 1126–1128 | Builders |
| `then_token` | 1131–1133 | Builders |
| `block` | 1136–1138 | Builders |
| `with_else_if_token` | 1141–1146 | Builders |
| `with_condition` | 1149–1151 | Builders |
| `with_then_token` | 1154–1156 | Builders |
| `with_block` | 1159–1161 | Builders |
| `new` | 1178–1186 | Build, State |
| `while_token` | 1189–1191 | Builders |
| `condition` | 1194–1196 | Builders |
| `do_token` | 1199–1201 | Builders |
| `block` | 1204–1206 | Builders |
| `end_token` | 1209–1211 | Builders |
| `with_while_token` | 1214–1219 | Builders |
| `with_condition` | 1222–1224 | Builders |
| `with_do_token` | 1227–1229 | Builders |
| `with_block` | 1232–1234 | Builders |
| `with_end_token` | 1237–1239 | Builders |
| `new` | 1255–1262 | Build |
| `repeat_token` | 1265–1267 | Builders |
| `block` | 1270–1272 | Builders |
| `until_token` | 1275–1277 | Builders |
| `until` | 1280–1282 | Builders |
| `with_repeat_token` | 1285–1290 | Builders |
| `with_block` | 1293–1295 | Builders |
| `with_until_token` | 1298–1303 | Builders |
| `with_until` | 1306–1308 | Builders |
| `new` | 1327–1335 | Build |
| `colon_token` | 1338–1340 | Builders |
| `args` | 1343–1345 | Builders |
| `name` | 1348–1350 | Builders |
| `type_instantiation` | 1356–1358 | Builders |
| `with_colon_token` | 1361–1366 | Builders |
| `with_name` | 1369–1371 | Builders |
| `with_args` | 1374–1376 | Builders |
| `with_type_instanation` | 1380–1385 | Builders |
| `fmt` | 1389–1400 | Node |
| `new` | 1439–1459 | Build, State |
| `parameters_parentheses` | 1462–1464 | Builders |
| `parameters` | 1467–1469 | Builders |
| `block` | 1472–1474 | Builders |
| `end_token` | 1477–1479 | Builders |
| `generics` | 1485–1487 | Builders |
| `type_specifiers` | 1494–1496 | Builders |
| `return_type` | 1501–1503 | Builders |
| `with_parameters_parentheses` | 1506–1511 | Builders |
| `with_parameters` | 1514–1516 | Builders |
| `with_generics` | 1520–1522 | Builders |
| `with_type_specifiers` | 1526–1531 | Builders |
| `with_return_type` | 1535–1540 | Builders |
| `with_block` | 1543–1545 | Builders |
| `with_end_token` | 1548–1550 | Builders |
| `default` | 1554–1556 | Build |
| `fmt` | 1561–1573 | Node |
| `fmt` | 1576–1586 | Node |
| `new` | 1631–1636 | Build |
| `prefix` | 1639–1641 | Builders |
| `suffixes` | 1644–1646 | Builders |
| `with_prefix` | 1649–1651 | Builders |
| `with_suffixes` | 1654–1656 | Builders |
| `new` | 1684–1690 | Build |
| `expressions` | 1694–1696 | Builders |
| `equal_token` | 1699–1701 | Builders |
| `variables` | 1705–1707 | Builders |
| `with_variables` | 1710–1712 | Builders |
| `with_equal_token` | 1715–1720 | Builders |
| `with_expressions` | 1723–1725 | Builders |
| `new` | 1757–1766 | Build |
| `attributes` | 1770–1772 | Builders |
| `local_token` | 1775–1777 | Builders |
| `function_token` | 1780–1782 | Builders |
| `body` | 1785–1787 | Builders |
| `name` | 1790–1792 | Builders |
| `with_attributes` | 1796–1798 | Builders |
| `with_local_token` | 1801–1806 | Builders |
| `with_function_token` | 1809–1814 | Builders |
| `with_name` | 1817–1819 | Builders |
| `with_body` | 1822–1824 | Builders |
| `new` | 1851–1862 | Build |
| `local_token` | 1865–1867 | Builders |
| `equal_token` | 1870–1872 | Builders |
| `expressions` | 1876–1878 | Builders |
| `names` | 1882–1884 | Builders |
| `type_specifiers` | 1891–1893 | Builders |
| `attributes` | 1900–1902 | Builders |
| `with_local_token` | 1905–1910 | Builders |
| `with_type_specifiers` | 1914–1919 | Builders |
| `with_attributes` | 1923–1925 | Builders |
| `with_names` | 1928–1930 | Builders |
| `with_equal_token` | 1933–1938 | Builders |
| `with_expressions` | 1941–1943 | Builders |
| `fmt` | 1947–1965 | Node |
| `new` | 1981–1987 | Build, State |
| `do_token` | 1990–1992 | Builders |
| `block` | 1995–1997 | Builders |
| `end_token` | 2000–2002 | Builders |
| `with_do_token` | 2005–2007 | Builders |
| `with_block` | 2010–2012 | Builders, State |
| `with_end_token` | 2015–2017 | Builders |
| `default` | 2021–2023 | Build |
| `new` | 2038–2051 | Build |
| `prefix` | 2054–2056 | Builders |
| `suffixes` | 2059–2061 | Builders |
| `with_prefix` | 2064–2066 | Builders |
| `with_suffixes` | 2069–2071 | Builders |
| `new` | 2090–2095 | Build |
| `method_colon` | 2098–2100 | Builders |
| `method_name` | 2103–2105 | Builders |
| `names` | 2109–2111 | Builders |
| `with_names` | 2114–2116 | Builders |
| `with_method` | 2120–2125 | Builders |
| `new` | 2147–2155 | Build |
| `attributes` | 2159–2161 | Builders |
| `function_token` | 2164–2166 | Builders |
| `body` | 2169–2171 | Builders |
| `name` | 2174–2176 | Builders |
| `with_attributes` | 2180–2182 | Builders |
| `with_function_token` | 2185–2190 | Builders |
| `with_name` | 2193–2195 | Builders |
| `with_body` | 2198–2200 | Builders |
| `precedence_of_token` | 2230–2246 | Operators |
| `token` | 2249–2260 | Operators |
| `consume` | 2262–2285 | Operators |
| `precedence` | 2331–2333 | Operators |
| `is_right_associative` | 2337–2339 | Operators |
| `is_right_associative_token` | 2342–2351 | Operators |
| `token` | 2370–2376 | Api, Operators, Shapes |
| `precedence` | 2380–2382 | Operators |
| `token` | 2402–2404 | Errors |
| `error_message` | 2407–2409 | Errors |
| `range` | 2412–2416 | Errors |
| `fmt` | 2420–2433 | Errors |
| `with_nodes` | 2448–2450 | Api, Node |
| `with_eof` | 2453–2455 | Api, Node |
| `nodes` | 2465–2467 | Node |
| `nodes_mut` | 2470–2472 | Node |
| `eof` | 2475–2477 | Node |
| `fmt` | 2481–2484 | Node |

## full-moon/src/ast/parser_structs.rs

| function | lines | cited by |
|---|---|---|
| `new` | 17–23 | State |
| `lua_version` | 27–29 | State |
| `current` | 31–37 | State |
| `peek` | 39–45 | State |
| `consume` | 47–71 | State |
| `consume_if` | 73–85 | State |
| `consume_if_symbols` | 87–99 | State |
| `require` | 101–114 | State |
| `require_with_reference_token` | 116–134 | State |
| `require_with_reference_range` | 136–155 | State |
| `require_with_reference_range_callback` | 157–183 | State |
| `token_error` | 185–196 | State |
| `token_error_ranged` | 199–215 | State |
| `to_str` | 219–219 | State |
| `to_str` | 223–225 | State |
| `to_str` | 229–231 | State |
| `unwrap` | 248–254 | State |
| `ast` | 270–272 | Api |
| `into_ast` | 278–280 | Api |
| `errors` | 283–285 | Api |
| `parse_fallible` | 287–383 | Parse |
| `into_result` | 386–388 | Parse |
| `from` | 392–398 | Parse |

## full-moon/src/ast/parsers.rs

| function | lines | cited by |
|---|---|---|
| `error_token` | 28–36 | State |
| `parse_block` | 38–71 | Stmt |
| `expect_block_with_end` | 76–111 | Expr |
| `parse_compound_assignment` | 122–137 | Stmt |
| `parse_stmt` | 139–677 | Expr, Stmt |
| `parse_last_stmt` | 679–708 | Stmt |
| `expect_function_name` | 710–771 | Stmt |
| `expect_function_declaration` | 773–800 | Stmt |
| `expect_local_function_declaration` | 802–835 | Stmt |
| `expect_for_stmt` | 837–923 | Stmt |
| `expect_numeric_for_stmt` | 925–994 | Stmt |
| `expect_if_stmt` | 996–1115 | Expr, Stmt |
| `expect_local_assignment` | 1117–1187 | Stmt |
| `expect_expression_key` | 1189–1251 | Expr |
| `force_table_constructor` | 1253–1399 | Expr |
| `expect_repeat_stmt` | 1401–1442 | Stmt |
| `expect_while_stmt` | 1444–1481 | Stmt |
| `expect_type_declaration` | 1484–1518 | Stmt |
| `expect_type_function` | 1521–1552 | Stmt |
| `parse_prefix` | 1554–1603 | Expr |
| `parse_arguments` | 1605–1649 | Expr |
| `parse_suffix` | 1651–1824 | Expr |
| `parse_prefix_and_suffixes` | 1826–1854 | Expr |
| `parse_expression` | 1856–1864 | Expr |
| `parse_primary_expression` | 1866–2057 | Expr |
| `parse_expression_with_precedence` | 2060–2128 | Expr |
| `parse_unary_expression` | 2130–2187 | Expr |
| `parse_function_body` | 2189–2391 | Expr, State, Types |
| `expect_if_else_expression` | 2394–2455 | Expr |
| `expect_interpolated_string` | 2458–2552 | Expr, State |
| `parse_type` | 2555–2573 | Types |
| `parse_type_or_pack` | 2576–2590 | Types |
| `parse_type_pack` | 2593–2626 | Types |
| `parse_simple_type` | 2636–2774 | Types |
| `parse_type_suffix` | 2777–2901 | Types |
| `expect_type_table` | 2904–3106 | Types |
| `expect_function_type` | 3109–3231 | Types |
| `expect_type_specifier` | 3234–3247 | Types |
| `parse_return_type` | 3250–3257 | Types |
| `parse_generic_type_list` | 3267–3418 | Types |
| `expect_generic_type_params` | 3427–3473 | Types |
| `parse_attributes` | 3476–3500 | Types |
| `parse_name` | 3512–3525 | Types |
| `parse_name_with_attributes` | 3527–3540 | Types |
| `parse_name_with_type_specifiers` | 3542–3555 | Types |
| `force_name` | 3557–3565 | Types |
| `force_name_with_attributes` | 3568–3642 | Types |
| `force_name_with_type_specifiers` | 3645–3669 | Types |
| `force_name_with_type_specifiers` | 3672–3674 | Types |
| `force_name_with_attributes` | 3677–3679 | Types |
| `expect_type_instantiation` | 3682–3707 | Types |
| `one_or_more` | 3709–3750 | State |
| `parse_name_list` | 3752–3754 | State |
| `parse_expression_list` | 3756–3758 | Expr |

## full-moon/src/ast/punctuated.rs

| function | lines | cited by |
|---|---|---|
| `new` | 46–48 | Build, Punctuated |
| `is_empty` | 58–60 | Punctuated |
| `len` | 70–72 | Punctuated |
| `iter` | 83–85 | Punctuated |
| `iter_mut` | 97–99 | Punctuated |
| `into_pairs` | 110–112 | Api |
| `first` | 122–124 | Punctuated |
| `last` | 133–135 | Punctuated |
| `pairs` | 146–148 | Api |
| `pairs_mut` | 160–162 | Api |
| `pop` | 171–173 | Punctuated |
| `push` | 182–184 | Punctuated |
| `push_punctuated` | 188–201 | Punctuated |
| `default` | 205–207 | Api |
| `start_position` | 213–215 | Node |
| `end_position` | 217–219 | Node |
| `similar` | 221–225 | Node |
| `tokens` | 227–229 | Node |
| `visit` | 233–235 | Visit |
| `visit_mut` | 239–243 | Visit |
| `extend` | 247–249 | Punctuated |
| `into_iter` | 256–260 | Punctuated |
| `from_iter` | 264–268 | Api |
| `into_iter` | 275–279 | Punctuated |
| `into_iter` | 286–290 | Punctuated |
| `next` | 302–304 | Punctuated |
| `next` | 316–318 | Punctuated |
| `next` | 330–332 | Punctuated |
| `new` | 358–363 | Punctuated |
| `into_tuple` | 371–376 | Punctuated |
| `into_value` | 384–386 | Punctuated |
| `value` | 394–399 | Punctuated |
| `value_mut` | 408–413 | Punctuated |
| `punctuation` | 421–426 | Punctuated |
| `map` | 435–440 | Punctuated |
| `start_position` | 446–448 | Node |
| `end_position` | 450–454 | Node |
| `similar` | 456–458 | Node |
| `tokens` | 460–471 | Node |
| `visit` | 475–483 | Visit |
| `visit_mut` | 487–494 | Visit |

## full-moon/src/ast/span.rs

| function | lines | cited by |
|---|---|---|
| `new` | 29–33 | State |
| `tokens` | 36–38 | State |
| `start_position` | 42–44 | Node |
| `end_position` | 46–48 | Node |
| `similar` | 50–52 | **not modelled** |
| `tokens` | 54–56 | Node |

## full-moon/src/ast/update_positions.rs

| function | lines | cited by |
|---|---|---|
| `update_token` | 14–52 | Visit |
| `visit_token_reference` | 56–68 | Visit |
| `update_positions` | 74–86 | Visit |

## full-moon/src/ast/versions.rs

| function | lines | cited by |
|---|---|---|
| `new` | 20–22 | Config |
| `lua51` | 25–27 | Config |
| `luau` | 31–35 | Config |
| `with_luau` | 39–43 | Config |
| `has_luau` | 46–48 | Config |
| `lua52` | 52–56 | Config |
| `with_lua52` | 60–62 | Config |
| `has_lua52` | 65–67 | Config |
| `lua53` | 71–75 | Config |
| `with_lua53` | 79–81 | Config |
| `has_lua53` | 84–86 | Config |
| `lua54` | 90–94 | Config |
| `with_lua54` | 98–100 | Config |
| `has_lua54` | 103–105 | Config |
| `luajit` | 109–113 | Config |
| `with_luajit` | 117–119 | Config |
| `has_luajit` | 122–124 | Config |
| `cfxlua` | 128–132 | Config |
| `with_cfxlua` | 136–138 | Config |
| `has_cfxlua` | 141–143 | Config |
| `default` | 147–151 | Config |
| `bitor` | 157–161 | Config |
| `bitor_assign` | 165–167 | Config |

## full-moon/src/ast/visitors.rs

| function | lines | cited by |
|---|---|---|
| `visit` | 13–47 | Visit |
| `visit_mut` | 51–90 | Visit |
| `visit` | 94–158 | Visit |
| `visit_mut` | 162–230 | Visit |
| `visit` | 234–252 | Visit |
| `visit_mut` | 256–281 | **not modelled** |
| `visit` | 285–305 | Visit |
| `visit_mut` | 309–332 | **not modelled** |
| `visit` | 337–371 | Visit |
| `visit_mut` | 375–435 | Visit |
| `visit` | 439–477 | Visit |
| `visit_mut` | 481–548 | Visit |
| `visit` | 552–581 | Visit |
| `visit_mut` | 585–633 | Visit |
| `visit` | 637–656 | Visit |
| `visit_mut` | 660–682 | Visit |

## full-moon/src/lib.rs

| function | lines | cited by |
|---|---|---|
| `error_message` | 48–53 | Errors |
| `range` | 56–61 | Errors |
| `fmt` | 65–74 | Errors |
| `parse` | 92–94 | Parse |
| `parse_fallible` | 109–111 | Parse |

## full-moon/src/node.rs

| function | lines | cited by |
|---|---|---|
| `start_position` | 13–13 | Node |
| `end_position` | 16–16 | Node |
| `similar` | 19–29 | Node |
| `tokens` | 24–24 | Node |
| `range` | 27–29 | Node |
| `surrounding_trivia` | 34–49 | Node |
| `fmt` | 58–65 | Node |
| `next` | 78–92 | Node |
| `next_back` | 96–109 | Node |
| `start_position` | 113–115 | Node |
| `end_position` | 117–119 | Node |
| `similar` | 121–123 | Node |
| `tokens` | 125–127 | Node |
| `start_position` | 131–133 | Node |
| `end_position` | 135–137 | Node |
| `similar` | 139–141 | Node |
| `tokens` | 143–145 | Node |
| `start_position` | 149–151 | Node |
| `end_position` | 153–155 | Node |
| `similar` | 157–159 | Node |
| `tokens` | 161–163 | Node |
| `start_position` | 167–169 | Node |
| `end_position` | 171–173 | Node |
| `similar` | 175–177 | Node |
| `tokens` | 179–181 | Node |
| `start_position` | 185–187 | Node |
| `end_position` | 189–191 | Node |
| `similar` | 193–195 | Node |
| `tokens` | 197–201 | Node |
| `start_position` | 205–207 | Node |
| `end_position` | 209–211 | Node |
| `similar` | 213–219 | Node |
| `tokens` | 221–226 | Node |
| `start_position` | 230–232 | Node |
| `end_position` | 234–236 | Node |
| `similar` | 238–244 | Node |
| `tokens` | 246–250 | Node |
| `start_position` | 254–261 | Node |
| `end_position` | 263–270 | Node |
| `similar` | 272–274 | Node |
| `tokens` | 276–281 | Node |

## full-moon/src/short_string.rs

| function | lines | cited by |
|---|---|---|
| `new` | 16–18 | Saved |
| `as_str` | 21–23 | Saved |
| `len` | 26–28 | Saved |
| `is_empty` | 31–33 | Saved |
| `fmt` | 37–39 | Saved |
| `deref` | 45–47 | Saved |
| `from` | 51–53 | Saved |
| `from_iter` | 57–59 | Saved |

## full-moon/src/tokenizer/interpolated_strings.rs

| function | lines | cited by |
|---|---|---|
| `read_interpolated_string_section` | 14–114 | Lexer |

## full-moon/src/tokenizer/lexer.rs

| function | lines | cited by |
|---|---|---|
| `new` | 29–36 | Lexer |
| `new_lazy` | 40–53 | Lexer |
| `current` | 56–58 | Lexer |
| `peek` | 61–63 | Lexer |
| `consume` | 66–71 | Lexer |
| `collect` | 74–100 | Lexer |
| `create` | 102–112 | Lexer |
| `create_recovered` | 114–128 | Lexer |
| `process_next_with_trivia` | 130–176 | Lexer |
| `process_first_with_trivia` | 178–211 | Lexer |
| `collect_trailing_trivia` | 213–254 | Lexer |
| `process_next` | 257–977 | Lexer |
| `read_number` | 979–1013 | Lexer |
| `eat_invalid_number` | 1015–1041 | Lexer |
| `read_exponent_part` | 1044–1074 | Lexer |
| `read_hex_number` | 1076–1129 | Lexer |
| `read_binary_number` | 1131–1164 | Lexer |
| `read_luajit_number_suffix` | 1166–1201 | Lexer |
| `read_string` | 1204–1291 | Lexer |
| `read_comment` | 1294–1348 | Lexer |
| `read_multi_line_body` | 1350–1401 | Lexer |
| `read_c_style_comment` | 1404–1425 | Lexer |
| `is_identifier_start` | 1428–1430 | Lexer |
| `new` | 1438–1443 | Lexer |
| `current` | 1445–1447 | Lexer |
| `next` | 1449–1463 | Lexer |
| `peek` | 1465–1467 | Lexer |
| `consume` | 1469–1476 | Lexer |
| `position` | 1478–1480 | **not modelled** |
| `new` | 1490–1499 | Lexer |
| `new` | 1515–1521 | Token |
| `unwrap` | 1524–1529 | Api |
| `unwrap_errors` | 1532–1537 | Api |
| `errors` | 1540–1545 | Token |

## full-moon/src/tokenizer/structs.rs

| function | lines | cited by |
|---|---|---|
| `from_str` | 54–73 | Config, Symbol |
| `fmt` | 77–88 | Symbol |
| `fmt` | 217–229 | Errors, Token |
| `is_usize_zero` | 233–235 | Saved, Token |
| `is_trivia` | 327–346 | Token |
| `kind` | 360–378 | Token |
| `spaces` | 381–385 | Api |
| `tabs` | 388–392 | Api |
| `new` | 438–444 | Token |
| `start_position` | 447–449 | Token |
| `end_position` | 452–454 | Token |
| `token_type` | 458–460 | Token |
| `token_kind` | 464–466 | Token |
| `fmt` | 470–523 | Token |
| `cmp` | 527–529 | Token |
| `partial_cmp` | 533–535 | Token |
| `visit` | 539–559 | Visit |
| `visit_mut` | 563–583 | Visit |
| `new` | 598–604 | Token |
| `symbol` | 622–624 | Build |
| `basic_symbol` | 626–628 | Build, State |
| `symbol_specific_lua_version` | 646–738 | Lexer |
| `token` | 741–743 | Token |
| `leading_trivia` | 746–748 | Token |
| `trailing_trivia` | 751–753 | Token |
| `with_token` | 756–762 | Token |
| `is_symbol` | 765–767 | Token |
| `borrow` | 771–773 | Token |
| `deref` | 779–781 | Token |
| `fmt` | 785–797 | Token |
| `eq` | 801–805 | Token |
| `cmp` | 811–813 | Token |
| `partial_cmp` | 817–819 | Token |
| `visit` | 823–833 | Visit |
| `visit_mut` | 837–848 | Visit |
| `bytes` | 862–864 | Token |
| `character` | 867–869 | Token |
| `line` | 872–874 | Token |
| `cmp` | 878–880 | Token |
| `partial_cmp` | 884–886 | Token |
| `fmt` | 906–917 | Token |
| `error` | 932–934 | Errors |
| `position` | 937–939 | Errors |
| `range` | 942–944 | Errors |
| `fmt` | 948–958 | Errors |

## full-moon/src/util.rs

| function | lines | cited by |
|---|---|---|
| `empty_optional_vector` | 10–12 | Saved, Shapes |
| `vec_empty_or_all_none` | 18–20 | Saved, Shapes |
| `display_option` | 22–27 | Api |
| `display_optional_punctuated` | 29–31 | Api |
| `display_optional_punctuated_vec` | 33–41 | Api |
| `join_vec` | 43–51 | Api |
| `join_type_specifiers` | 54–75 | Node |
| `join_iterators` | 77–106 | Node |

## full-moon/src/visitors.rs

| function | lines | cited by |
|---|---|---|
| `visit_ast` | 55–58 | Visit |
| `visit_ast` | 98–108 | Visit, VisitChanging |
| `visit` | 164–164 | Visit |
| `visit_mut` | 172–172 | VisitChanging |
| `visit` | 176–178 | Visit, VisitChanging |
| `visit` | 182–184 | Visit, VisitChanging |
| `visit` | 188–192 | Visit, VisitChanging |
| `visit_mut` | 196–200 | Visit, VisitChanging |
| `visit` | 204–208 | Visit, VisitChanging |
| `visit_mut` | 212–214 | VisitChanging |
| `visit` | 218–221 | Visit, VisitChanging |
| `visit_mut` | 225–227 | VisitChanging |
| `visit` | 231–233 | Visit, VisitChanging |
| `visit_mut` | 237–239 | VisitChanging |

## full-moon-derive/src/derive.rs

| function | lines | cited by |
|---|---|---|
| `complete` | 6–6 | **not modelled** |
| `derive` | 8–18 | **not modelled** |
| `generate` | 22–22 | **not modelled** |
| `generate` | 26–26 | **not modelled** |
| `complete` | 33–35 | **not modelled** |
| `case_named` | 37–43 | **not modelled** |
| `case_unnamed` | 45–51 | **not modelled** |
| `case_unit` | 53–55 | **not modelled** |
| `generate` | 59–86 | **not modelled** |
| `key_value` | 93–95 | **not modelled** |
| `unit` | 97–99 | **not modelled** |
| `search_hint` | 102–147 | **not modelled** |

## full-moon-derive/src/lib.rs

| function | lines | cited by |
|---|---|---|
| `derive_visit` | 14–16 | **not modelled** |
| `derive_node` | 19–21 | **not modelled** |

## full-moon-derive/src/node.rs

| function | lines | cited by |
|---|---|---|
| `token_getter` | 6–31 | Node |
| `unit` | 39–45 | **not modelled** |
| `complete` | 51–98 | Node |
| `start_position` | 79–81 | Node |
| `end_position` | 83–85 | Node |
| `similar` | 87–89 | Node |
| `tokens` | 91–93 | Node |
| `generate` | 102–112 | **not modelled** |
| `generate` | 118–161 | Node |
| `generate` | 167–179 | Node |
| `generate` | 185–206 | Node |
| `generate` | 210–224 | Node |
| `case_named` | 230–285 | Node |
| `case_unnamed` | 287–325 | Node |
| `case_named` | 331–364 | Node |
| `case_unnamed` | 366–396 | Node |
| `case_unit` | 398–402 | Node |
| `case_named` | 410–441 | Node |
| `case_unnamed` | 443–472 | Node |

## full-moon-derive/src/visit.rs

| function | lines | cited by |
|---|---|---|
| `snake_case` | 7–21 | **not modelled** |
| `key_value` | 32–40 | **not modelled** |
| `unit` | 42–48 | **not modelled** |
| `visit_fields` | 54–90 | Visit |
| `complete` | 94–207 | Visit, VisitChanging |
| `visit` | 140–170 | **not modelled** |
| `visit_mut` | 175–204 | Visit, VisitChanging |
| `generate` | 211–213 | Visit |
| `complete` | 217–221 | Visit |
| `case_named` | 223–251 | Visit |
| `case_unnamed` | 253–283 | Visit |


import Verif.Kinds

/-! GENERATED by tools/extract_table.py from packages/gurke/src/gurke/parser.py (read as text).
Each state is one `match_token_at_N` method; transitions are listed in source order. -/

namespace Gherkin

/-- packages/gurke/src/gurke/parser.py:245-289 `match_token_at_0` -/
def state0 : StateRow := {
  trans := [
    ⟨.eof, none, [.build], 42⟩,
    ⟨.language, none, [.start .feature, .start .featureHeader, .build], 1⟩,
    ⟨.tagLine, none, [.start .feature, .start .featureHeader, .start .tags, .build], 2⟩,
    ⟨.featureLine, none, [.start .feature, .start .featureHeader, .build], 3⟩,
    ⟨.comment, none, [.build], 0⟩,
    ⟨.empty, none, [.build], 0⟩]
  expected := [.eof, .language, .tagLine, .featureLine, .comment, .empty]
  stay := 0 }

/-- packages/gurke/src/gurke/parser.py:291-321 `match_token_at_1` -/
def state1 : StateRow := {
  trans := [
    ⟨.tagLine, none, [.start .tags, .build], 2⟩,
    ⟨.featureLine, none, [.build], 3⟩,
    ⟨.comment, none, [.build], 1⟩,
    ⟨.empty, none, [.build], 1⟩]
  expected := [.tagLine, .featureLine, .comment, .empty]
  stay := 1 }

/-- packages/gurke/src/gurke/parser.py:323-353 `match_token_at_2` -/
def state2 : StateRow := {
  trans := [
    ⟨.tagLine, none, [.build], 2⟩,
    ⟨.featureLine, none, [.stop .tags, .build], 3⟩,
    ⟨.comment, none, [.build], 2⟩,
    ⟨.empty, none, [.build], 2⟩]
  expected := [.tagLine, .featureLine, .comment, .empty]
  stay := 2 }

/-- packages/gurke/src/gurke/parser.py:355-421 `match_token_at_3` -/
def state3 : StateRow := {
  trans := [
    ⟨.eof, none, [.stop .featureHeader, .stop .feature, .build], 42⟩,
    ⟨.empty, none, [.build], 3⟩,
    ⟨.comment, none, [.build], 5⟩,
    ⟨.backgroundLine, none, [.stop .featureHeader, .start .background, .build], 6⟩,
    ⟨.tagLine, (some .la0), [.stop .featureHeader, .start .scenarioDefinition, .start .tags, .build], 11⟩,
    ⟨.tagLine, none, [.stop .featureHeader, .start .rule, .start .ruleHeader, .start .tags, .build], 22⟩,
    ⟨.scenarioLine, none, [.stop .featureHeader, .start .scenarioDefinition, .start .scenario, .build], 12⟩,
    ⟨.ruleLine, none, [.stop .featureHeader, .start .rule, .start .ruleHeader, .build], 23⟩,
    ⟨.other, none, [.start .description, .build], 4⟩]
  expected := [.eof, .empty, .comment, .backgroundLine, .tagLine, .scenarioLine, .ruleLine, .other]
  stay := 3 }

/-- packages/gurke/src/gurke/parser.py:423-491 `match_token_at_4` -/
def state4 : StateRow := {
  trans := [
    ⟨.eof, none, [.stop .description, .stop .featureHeader, .stop .feature, .build], 42⟩,
    ⟨.comment, none, [.stop .description, .build], 5⟩,
    ⟨.backgroundLine, none, [.stop .description, .stop .featureHeader, .start .background, .build], 6⟩,
    ⟨.tagLine, (some .la0), [.stop .description, .stop .featureHeader, .start .scenarioDefinition, .start .tags, .build], 11⟩,
    ⟨.tagLine, none, [.stop .description, .stop .featureHeader, .start .rule, .start .ruleHeader, .start .tags, .build], 22⟩,
    ⟨.scenarioLine, none, [.stop .description, .stop .featureHeader, .start .scenarioDefinition, .start .scenario, .build], 12⟩,
    ⟨.ruleLine, none, [.stop .description, .stop .featureHeader, .start .rule, .start .ruleHeader, .build], 23⟩,
    ⟨.other, none, [.build], 4⟩]
  expected := [.eof, .comment, .backgroundLine, .tagLine, .scenarioLine, .ruleLine, .other]
  stay := 4 }

/-- packages/gurke/src/gurke/parser.py:493-554 `match_token_at_5` -/
def state5 : StateRow := {
  trans := [
    ⟨.eof, none, [.stop .featureHeader, .stop .feature, .build], 42⟩,
    ⟨.comment, none, [.build], 5⟩,
    ⟨.backgroundLine, none, [.stop .featureHeader, .start .background, .build], 6⟩,
    ⟨.tagLine, (some .la0), [.stop .featureHeader, .start .scenarioDefinition, .start .tags, .build], 11⟩,
    ⟨.tagLine, none, [.stop .featureHeader, .start .rule, .start .ruleHeader, .start .tags, .build], 22⟩,
    ⟨.scenarioLine, none, [.stop .featureHeader, .start .scenarioDefinition, .start .scenario, .build], 12⟩,
    ⟨.ruleLine, none, [.stop .featureHeader, .start .rule, .start .ruleHeader, .build], 23⟩,
    ⟨.empty, none, [.build], 5⟩]
  expected := [.eof, .comment, .backgroundLine, .tagLine, .scenarioLine, .ruleLine, .empty]
  stay := 5 }

/-- packages/gurke/src/gurke/parser.py:556-621 `match_token_at_6` -/
def state6 : StateRow := {
  trans := [
    ⟨.eof, none, [.stop .background, .stop .feature, .build], 42⟩,
    ⟨.empty, none, [.build], 6⟩,
    ⟨.comment, none, [.build], 8⟩,
    ⟨.stepLine, none, [.start .step, .build], 9⟩,
    ⟨.tagLine, (some .la0), [.stop .background, .start .scenarioDefinition, .start .tags, .build], 11⟩,
    ⟨.tagLine, none, [.stop .background, .start .rule, .start .ruleHeader, .start .tags, .build], 22⟩,
    ⟨.scenarioLine, none, [.stop .background, .start .scenarioDefinition, .start .scenario, .build], 12⟩,
    ⟨.ruleLine, none, [.stop .background, .start .rule, .start .ruleHeader, .build], 23⟩,
    ⟨.other, none, [.start .description, .build], 7⟩]
  expected := [.eof, .empty, .comment, .stepLine, .tagLine, .scenarioLine, .ruleLine, .other]
  stay := 6 }

/-- packages/gurke/src/gurke/parser.py:623-690 `match_token_at_7` -/
def state7 : StateRow := {
  trans := [
    ⟨.eof, none, [.stop .description, .stop .background, .stop .feature, .build], 42⟩,
    ⟨.comment, none, [.stop .description, .build], 8⟩,
    ⟨.stepLine, none, [.stop .description, .start .step, .build], 9⟩,
    ⟨.tagLine, (some .la0), [.stop .description, .stop .background, .start .scenarioDefinition, .start .tags, .build], 11⟩,
    ⟨.tagLine, none, [.stop .description, .stop .background, .start .rule, .start .ruleHeader, .start .tags, .build], 22⟩,
    ⟨.scenarioLine, none, [.stop .description, .stop .background, .start .scenarioDefinition, .start .scenario, .build], 12⟩,
    ⟨.ruleLine, none, [.stop .description, .stop .background, .start .rule, .start .ruleHeader, .build], 23⟩,
    ⟨.other, none, [.build], 7⟩]
  expected := [.eof, .comment, .stepLine, .tagLine, .scenarioLine, .ruleLine, .other]
  stay := 7 }

/-- packages/gurke/src/gurke/parser.py:692-752 `match_token_at_8` -/
def state8 : StateRow := {
  trans := [
    ⟨.eof, none, [.stop .background, .stop .feature, .build], 42⟩,
    ⟨.comment, none, [.build], 8⟩,
    ⟨.stepLine, none, [.start .step, .build], 9⟩,
    ⟨.tagLine, (some .la0), [.stop .background, .start .scenarioDefinition, .start .tags, .build], 11⟩,
    ⟨.tagLine, none, [.stop .background, .start .rule, .start .ruleHeader, .start .tags, .build], 22⟩,
    ⟨.scenarioLine, none, [.stop .background, .start .scenarioDefinition, .start .scenario, .build], 12⟩,
    ⟨.ruleLine, none, [.stop .background, .start .rule, .start .ruleHeader, .build], 23⟩,
    ⟨.empty, none, [.build], 8⟩]
  expected := [.eof, .comment, .stepLine, .tagLine, .scenarioLine, .ruleLine, .empty]
  stay := 8 }

/-- packages/gurke/src/gurke/parser.py:754-830 `match_token_at_9` -/
def state9 : StateRow := {
  trans := [
    ⟨.eof, none, [.stop .step, .stop .background, .stop .feature, .build], 42⟩,
    ⟨.tableRow, none, [.start .dataTable, .build], 10⟩,
    ⟨.docStringSeparator, none, [.start .docString, .build], 49⟩,
    ⟨.stepLine, none, [.stop .step, .start .step, .build], 9⟩,
    ⟨.tagLine, (some .la0), [.stop .step, .stop .background, .start .scenarioDefinition, .start .tags, .build], 11⟩,
    ⟨.tagLine, none, [.stop .step, .stop .background, .start .rule, .start .ruleHeader, .start .tags, .build], 22⟩,
    ⟨.scenarioLine, none, [.stop .step, .stop .background, .start .scenarioDefinition, .start .scenario, .build], 12⟩,
    ⟨.ruleLine, none, [.stop .step, .stop .background, .start .rule, .start .ruleHeader, .build], 23⟩,
    ⟨.comment, none, [.build], 9⟩,
    ⟨.empty, none, [.build], 9⟩]
  expected := [.eof, .tableRow, .docStringSeparator, .stepLine, .tagLine, .scenarioLine, .ruleLine, .comment, .empty]
  stay := 9 }

/-- packages/gurke/src/gurke/parser.py:832-908 `match_token_at_10` -/
def state10 : StateRow := {
  trans := [
    ⟨.eof, none, [.stop .dataTable, .stop .step, .stop .background, .stop .feature, .build], 42⟩,
    ⟨.tableRow, none, [.build], 10⟩,
    ⟨.stepLine, none, [.stop .dataTable, .stop .step, .start .step, .build], 9⟩,
    ⟨.tagLine, (some .la0), [.stop .dataTable, .stop .step, .stop .background, .start .scenarioDefinition, .start .tags, .build], 11⟩,
    ⟨.tagLine, none, [.stop .dataTable, .stop .step, .stop .background, .start .rule, .start .ruleHeader, .start .tags, .build], 22⟩,
    ⟨.scenarioLine, none, [.stop .dataTable, .stop .step, .stop .background, .start .scenarioDefinition, .start .scenario, .build], 12⟩,
    ⟨.ruleLine, none, [.stop .dataTable, .stop .step, .stop .background, .start .rule, .start .ruleHeader, .build], 23⟩,
    ⟨.comment, none, [.build], 10⟩,
    ⟨.empty, none, [.build], 10⟩]
  expected := [.eof, .tableRow, .stepLine, .tagLine, .scenarioLine, .ruleLine, .comment, .empty]
  stay := 10 }

/-- packages/gurke/src/gurke/parser.py:910-941 `match_token_at_11` -/
def state11 : StateRow := {
  trans := [
    ⟨.tagLine, none, [.build], 11⟩,
    ⟨.scenarioLine, none, [.stop .tags, .start .scenario, .build], 12⟩,
    ⟨.comment, none, [.build], 11⟩,
    ⟨.empty, none, [.build], 11⟩]
  expected := [.tagLine, .scenarioLine, .comment, .empty]
  stay := 11 }

/-- packages/gurke/src/gurke/parser.py:943-1024 `match_token_at_12` -/
def state12 : StateRow := {
  trans := [
    ⟨.eof, none, [.stop .scenario, .stop .scenarioDefinition, .stop .feature, .build], 42⟩,
    ⟨.empty, none, [.build], 12⟩,
    ⟨.comment, none, [.build], 14⟩,
    ⟨.stepLine, none, [.start .step, .build], 15⟩,
    ⟨.tagLine, (some .la1), [.start .examplesDefinition, .start .tags, .build], 17⟩,
    ⟨.tagLine, (some .la0), [.stop .scenario, .stop .scenarioDefinition, .start .scenarioDefinition, .start .tags, .build], 11⟩,
    ⟨.tagLine, none, [.stop .scenario, .stop .scenarioDefinition, .start .rule, .start .ruleHeader, .start .tags, .build], 22⟩,
    ⟨.examplesLine, none, [.start .examplesDefinition, .start .examples, .build], 18⟩,
    ⟨.scenarioLine, none, [.stop .scenario, .stop .scenarioDefinition, .start .scenarioDefinition, .start .scenario, .build], 12⟩,
    ⟨.ruleLine, none, [.stop .scenario, .stop .scenarioDefinition, .start .rule, .start .ruleHeader, .build], 23⟩,
    ⟨.other, none, [.start .description, .build], 13⟩]
  expected := [.eof, .empty, .comment, .stepLine, .tagLine, .examplesLine, .scenarioLine, .ruleLine, .other]
  stay := 12 }

/-- packages/gurke/src/gurke/parser.py:1026-1111 `match_token_at_13` -/
def state13 : StateRow := {
  trans := [
    ⟨.eof, none, [.stop .description, .stop .scenario, .stop .scenarioDefinition, .stop .feature, .build], 42⟩,
    ⟨.comment, none, [.stop .description, .build], 14⟩,
    ⟨.stepLine, none, [.stop .description, .start .step, .build], 15⟩,
    ⟨.tagLine, (some .la1), [.stop .description, .start .examplesDefinition, .start .tags, .build], 17⟩,
    ⟨.tagLine, (some .la0), [.stop .description, .stop .scenario, .stop .scenarioDefinition, .start .scenarioDefinition, .start .tags, .build], 11⟩,
    ⟨.tagLine, none, [.stop .description, .stop .scenario, .stop .scenarioDefinition, .start .rule, .start .ruleHeader, .start .tags, .build], 22⟩,
    ⟨.examplesLine, none, [.stop .description, .start .examplesDefinition, .start .examples, .build], 18⟩,
    ⟨.scenarioLine, none, [.stop .description, .stop .scenario, .stop .scenarioDefinition, .start .scenarioDefinition, .start .scenario, .build], 12⟩,
    ⟨.ruleLine, none, [.stop .description, .stop .scenario, .stop .scenarioDefinition, .start .rule, .start .ruleHeader, .build], 23⟩,
    ⟨.other, none, [.build], 13⟩]
  expected := [.eof, .comment, .stepLine, .tagLine, .examplesLine, .scenarioLine, .ruleLine, .other]
  stay := 13 }

/-- packages/gurke/src/gurke/parser.py:1113-1189 `match_token_at_14` -/
def state14 : StateRow := {
  trans := [
    ⟨.eof, none, [.stop .scenario, .stop .scenarioDefinition, .stop .feature, .build], 42⟩,
    ⟨.comment, none, [.build], 14⟩,
    ⟨.stepLine, none, [.start .step, .build], 15⟩,
    ⟨.tagLine, (some .la1), [.start .examplesDefinition, .start .tags, .build], 17⟩,
    ⟨.tagLine, (some .la0), [.stop .scenario, .stop .scenarioDefinition, .start .scenarioDefinition, .start .tags, .build], 11⟩,
    ⟨.tagLine, none, [.stop .scenario, .stop .scenarioDefinition, .start .rule, .start .ruleHeader, .start .tags, .build], 22⟩,
    ⟨.examplesLine, none, [.start .examplesDefinition, .start .examples, .build], 18⟩,
    ⟨.scenarioLine, none, [.stop .scenario, .stop .scenarioDefinition, .start .scenarioDefinition, .start .scenario, .build], 12⟩,
    ⟨.ruleLine, none, [.stop .scenario, .stop .scenarioDefinition, .start .rule, .start .ruleHeader, .build], 23⟩,
    ⟨.empty, none, [.build], 14⟩]
  expected := [.eof, .comment, .stepLine, .tagLine, .examplesLine, .scenarioLine, .ruleLine, .empty]
  stay := 14 }

/-- packages/gurke/src/gurke/parser.py:1191-1285 `match_token_at_15` -/
def state15 : StateRow := {
  trans := [
    ⟨.eof, none, [.stop .step, .stop .scenario, .stop .scenarioDefinition, .stop .feature, .build], 42⟩,
    ⟨.tableRow, none, [.start .dataTable, .build], 16⟩,
    ⟨.docStringSeparator, none, [.start .docString, .build], 47⟩,
    ⟨.stepLine, none, [.stop .step, .start .step, .build], 15⟩,
    ⟨.tagLine, (some .la1), [.stop .step, .start .examplesDefinition, .start .tags, .build], 17⟩,
    ⟨.tagLine, (some .la0), [.stop .step, .stop .scenario, .stop .scenarioDefinition, .start .scenarioDefinition, .start .tags, .build], 11⟩,
    ⟨.tagLine, none, [.stop .step, .stop .scenario, .stop .scenarioDefinition, .start .rule, .start .ruleHeader, .start .tags, .build], 22⟩,
    ⟨.examplesLine, none, [.stop .step, .start .examplesDefinition, .start .examples, .build], 18⟩,
    ⟨.scenarioLine, none, [.stop .step, .stop .scenario, .stop .scenarioDefinition, .start .scenarioDefinition, .start .scenario, .build], 12⟩,
    ⟨.ruleLine, none, [.stop .step, .stop .scenario, .stop .scenarioDefinition, .start .rule, .start .ruleHeader, .build], 23⟩,
    ⟨.comment, none, [.build], 15⟩,
    ⟨.empty, none, [.build], 15⟩]
  expected := [.eof, .tableRow, .docStringSeparator, .stepLine, .tagLine, .examplesLine, .scenarioLine, .ruleLine, .comment, .empty]
  stay := 15 }

/-- packages/gurke/src/gurke/parser.py:1287-1383 `match_token_at_16` -/
def state16 : StateRow := {
  trans := [
    ⟨.eof, none, [.stop .dataTable, .stop .step, .stop .scenario, .stop .scenarioDefinition, .stop .feature, .build], 42⟩,
    ⟨.tableRow, none, [.build], 16⟩,
    ⟨.stepLine, none, [.stop .dataTable, .stop .step, .start .step, .build], 15⟩,
    ⟨.tagLine, (some .la1), [.stop .dataTable, .stop .step, .start .examplesDefinition, .start .tags, .build], 17⟩,
    ⟨.tagLine, (some .la0), [.stop .dataTable, .stop .step, .stop .scenario, .stop .scenarioDefinition, .start .scenarioDefinition, .start .tags, .build], 11⟩,
    ⟨.tagLine, none, [.stop .dataTable, .stop .step, .stop .scenario, .stop .scenarioDefinition, .start .rule, .start .ruleHeader, .start .tags, .build], 22⟩,
    ⟨.examplesLine, none, [.stop .dataTable, .stop .step, .start .examplesDefinition, .start .examples, .build], 18⟩,
    ⟨.scenarioLine, none, [.stop .dataTable, .stop .step, .stop .scenario, .stop .scenarioDefinition, .start .scenarioDefinition, .start .scenario, .build], 12⟩,
    ⟨.ruleLine, none, [.stop .dataTable, .stop .step, .stop .scenario, .stop .scenarioDefinition, .start .rule, .start .ruleHeader, .build], 23⟩,
    ⟨.comment, none, [.build], 16⟩,
    ⟨.empty, none, [.build], 16⟩]
  expected := [.eof, .tableRow, .stepLine, .tagLine, .examplesLine, .scenarioLine, .ruleLine, .comment, .empty]
  stay := 16 }

/-- packages/gurke/src/gurke/parser.py:1385-1416 `match_token_at_17` -/
def state17 : StateRow := {
  trans := [
    ⟨.tagLine, none, [.build], 17⟩,
    ⟨.examplesLine, none, [.stop .tags, .start .examples, .build], 18⟩,
    ⟨.comment, none, [.build], 17⟩,
    ⟨.empty, none, [.build], 17⟩]
  expected := [.tagLine, .examplesLine, .comment, .empty]
  stay := 17 }

/-- packages/gurke/src/gurke/parser.py:1418-1513 `match_token_at_18` -/
def state18 : StateRow := {
  trans := [
    ⟨.eof, none, [.stop .examples, .stop .examplesDefinition, .stop .scenario, .stop .scenarioDefinition, .stop .feature, .build], 42⟩,
    ⟨.empty, none, [.build], 18⟩,
    ⟨.comment, none, [.build], 20⟩,
    ⟨.tableRow, none, [.start .examplesTable, .build], 21⟩,
    ⟨.tagLine, (some .la1), [.stop .examples, .stop .examplesDefinition, .start .examplesDefinition, .start .tags, .build], 17⟩,
    ⟨.tagLine, (some .la0), [.stop .examples, .stop .examplesDefinition, .stop .scenario, .stop .scenarioDefinition, .start .scenarioDefinition, .start .tags, .build], 11⟩,
    ⟨.tagLine, none, [.stop .examples, .stop .examplesDefinition, .stop .scenario, .stop .scenarioDefinition, .start .rule, .start .ruleHeader, .start .tags, .build], 22⟩,
    ⟨.examplesLine, none, [.stop .examples, .stop .examplesDefinition, .start .examplesDefinition, .start .examples, .build], 18⟩,
    ⟨.scenarioLine, none, [.stop .examples, .stop .examplesDefinition, .stop .scenario, .stop .scenarioDefinition, .start .scenarioDefinition, .start .scenario, .build], 12⟩,
    ⟨.ruleLine, none, [.stop .examples, .stop .examplesDefinition, .stop .scenario, .stop .scenarioDefinition, .start .rule, .start .ruleHeader, .build], 23⟩,
    ⟨.other, none, [.start .description, .build], 19⟩]
  expected := [.eof, .empty, .comment, .tableRow, .tagLine, .examplesLine, .scenarioLine, .ruleLine, .other]
  stay := 18 }

/-- packages/gurke/src/gurke/parser.py:1515-1614 `match_token_at_19` -/
def state19 : StateRow := {
  trans := [
    ⟨.eof, none, [.stop .description, .stop .examples, .stop .examplesDefinition, .stop .scenario, .stop .scenarioDefinition, .stop .feature, .build], 42⟩,
    ⟨.comment, none, [.stop .description, .build], 20⟩,
    ⟨.tableRow, none, [.stop .description, .start .examplesTable, .build], 21⟩,
    ⟨.tagLine, (some .la1), [.stop .description, .stop .examples, .stop .examplesDefinition, .start .examplesDefinition, .start .tags, .build], 17⟩,
    ⟨.tagLine, (some .la0), [.stop .description, .stop .examples, .stop .examplesDefinition, .stop .scenario, .stop .scenarioDefinition, .start .scenarioDefinition, .start .tags, .build], 11⟩,
    ⟨.tagLine, none, [.stop .description, .stop .examples, .stop .examplesDefinition, .stop .scenario, .stop .scenarioDefinition, .start .rule, .start .ruleHeader, .start .tags, .build], 22⟩,
    ⟨.examplesLine, none, [.stop .description, .stop .examples, .stop .examplesDefinition, .start .examplesDefinition, .start .examples, .build], 18⟩,
    ⟨.scenarioLine, none, [.stop .description, .stop .examples, .stop .examplesDefinition, .stop .scenario, .stop .scenarioDefinition, .start .scenarioDefinition, .start .scenario, .build], 12⟩,
    ⟨.ruleLine, none, [.stop .description, .stop .examples, .stop .examplesDefinition, .stop .scenario, .stop .scenarioDefinition, .start .rule, .start .ruleHeader, .build], 23⟩,
    ⟨.other, none, [.build], 19⟩]
  expected := [.eof, .comment, .tableRow, .tagLine, .examplesLine, .scenarioLine, .ruleLine, .other]
  stay := 19 }

/-- packages/gurke/src/gurke/parser.py:1616-1706 `match_token_at_20` -/
def state20 : StateRow := {
  trans := [
    ⟨.eof, none, [.stop .examples, .stop .examplesDefinition, .stop .scenario, .stop .scenarioDefinition, .stop .feature, .build], 42⟩,
    ⟨.comment, none, [.build], 20⟩,
    ⟨.tableRow, none, [.start .examplesTable, .build], 21⟩,
    ⟨.tagLine, (some .la1), [.stop .examples, .stop .examplesDefinition, .start .examplesDefinition, .start .tags, .build], 17⟩,
    ⟨.tagLine, (some .la0), [.stop .examples, .stop .examplesDefinition, .stop .scenario, .stop .scenarioDefinition, .start .scenarioDefinition, .start .tags, .build], 11⟩,
    ⟨.tagLine, none, [.stop .examples, .stop .examplesDefinition, .stop .scenario, .stop .scenarioDefinition, .start .rule, .start .ruleHeader, .start .tags, .build], 22⟩,
    ⟨.examplesLine, none, [.stop .examples, .stop .examplesDefinition, .start .examplesDefinition, .start .examples, .build], 18⟩,
    ⟨.scenarioLine, none, [.stop .examples, .stop .examplesDefinition, .stop .scenario, .stop .scenarioDefinition, .start .scenarioDefinition, .start .scenario, .build], 12⟩,
    ⟨.ruleLine, none, [.stop .examples, .stop .examplesDefinition, .stop .scenario, .stop .scenarioDefinition, .start .rule, .start .ruleHeader, .build], 23⟩,
    ⟨.empty, none, [.build], 20⟩]
  expected := [.eof, .comment, .tableRow, .tagLine, .examplesLine, .scenarioLine, .ruleLine, .empty]
  stay := 20 }

/-- packages/gurke/src/gurke/parser.py:1708-1804 `match_token_at_21` -/
def state21 : StateRow := {
  trans := [
    ⟨.eof, none, [.stop .examplesTable, .stop .examples, .stop .examplesDefinition, .stop .scenario, .stop .scenarioDefinition, .stop .feature, .build], 42⟩,
    ⟨.tableRow, none, [.build], 21⟩,
    ⟨.tagLine, (some .la1), [.stop .examplesTable, .stop .examples, .stop .examplesDefinition, .start .examplesDefinition, .start .tags, .build], 17⟩,
    ⟨.tagLine, (some .la0), [.stop .examplesTable, .stop .examples, .stop .examplesDefinition, .stop .scenario, .stop .scenarioDefinition, .start .scenarioDefinition, .start .tags, .build], 11⟩,
    ⟨.tagLine, none, [.stop .examplesTable, .stop .examples, .stop .examplesDefinition, .stop .scenario, .stop .scenarioDefinition, .start .rule, .start .ruleHeader, .start .tags, .build], 22⟩,
    ⟨.examplesLine, none, [.stop .examplesTable, .stop .examples, .stop .examplesDefinition, .start .examplesDefinition, .start .examples, .build], 18⟩,
    ⟨.scenarioLine, none, [.stop .examplesTable, .stop .examples, .stop .examplesDefinition, .stop .scenario, .stop .scenarioDefinition, .start .scenarioDefinition, .start .scenario, .build], 12⟩,
    ⟨.ruleLine, none, [.stop .examplesTable, .stop .examples, .stop .examplesDefinition, .stop .scenario, .stop .scenarioDefinition, .start .rule, .start .ruleHeader, .build], 23⟩,
    ⟨.comment, none, [.build], 21⟩,
    ⟨.empty, none, [.build], 21⟩]
  expected := [.eof, .tableRow, .tagLine, .examplesLine, .scenarioLine, .ruleLine, .comment, .empty]
  stay := 21 }

/-- packages/gurke/src/gurke/parser.py:1806-1836 `match_token_at_22` -/
def state22 : StateRow := {
  trans := [
    ⟨.tagLine, none, [.build], 22⟩,
    ⟨.ruleLine, none, [.stop .tags, .build], 23⟩,
    ⟨.comment, none, [.build], 22⟩,
    ⟨.empty, none, [.build], 22⟩]
  expected := [.tagLine, .ruleLine, .comment, .empty]
  stay := 22 }

/-- packages/gurke/src/gurke/parser.py:1838-1907 `match_token_at_23` -/
def state23 : StateRow := {
  trans := [
    ⟨.eof, none, [.stop .ruleHeader, .stop .rule, .stop .feature, .build], 42⟩,
    ⟨.empty, none, [.build], 23⟩,
    ⟨.comment, none, [.build], 25⟩,
    ⟨.backgroundLine, none, [.stop .ruleHeader, .start .background, .build], 26⟩,
    ⟨.tagLine, (some .la0), [.stop .ruleHeader, .start .scenarioDefinition, .start .tags, .build], 31⟩,
    ⟨.tagLine, none, [.stop .ruleHeader, .stop .rule, .start .rule, .start .ruleHeader, .start .tags, .build], 22⟩,
    ⟨.scenarioLine, none, [.stop .ruleHeader, .start .scenarioDefinition, .start .scenario, .build], 32⟩,
    ⟨.ruleLine, none, [.stop .ruleHeader, .stop .rule, .start .rule, .start .ruleHeader, .build], 23⟩,
    ⟨.other, none, [.start .description, .build], 24⟩]
  expected := [.eof, .empty, .comment, .backgroundLine, .tagLine, .scenarioLine, .ruleLine, .other]
  stay := 23 }

/-- packages/gurke/src/gurke/parser.py:1909-1980 `match_token_at_24` -/
def state24 : StateRow := {
  trans := [
    ⟨.eof, none, [.stop .description, .stop .ruleHeader, .stop .rule, .stop .feature, .build], 42⟩,
    ⟨.comment, none, [.stop .description, .build], 25⟩,
    ⟨.backgroundLine, none, [.stop .description, .stop .ruleHeader, .start .background, .build], 26⟩,
    ⟨.tagLine, (some .la0), [.stop .description, .stop .ruleHeader, .start .scenarioDefinition, .start .tags, .build], 31⟩,
    ⟨.tagLine, none, [.stop .description, .stop .ruleHeader, .stop .rule, .start .rule, .start .ruleHeader, .start .tags, .build], 22⟩,
    ⟨.scenarioLine, none, [.stop .description, .stop .ruleHeader, .start .scenarioDefinition, .start .scenario, .build], 32⟩,
    ⟨.ruleLine, none, [.stop .description, .stop .ruleHeader, .stop .rule, .start .rule, .start .ruleHeader, .build], 23⟩,
    ⟨.other, none, [.build], 24⟩]
  expected := [.eof, .comment, .backgroundLine, .tagLine, .scenarioLine, .ruleLine, .other]
  stay := 24 }

/-- packages/gurke/src/gurke/parser.py:1982-2046 `match_token_at_25` -/
def state25 : StateRow := {
  trans := [
    ⟨.eof, none, [.stop .ruleHeader, .stop .rule, .stop .feature, .build], 42⟩,
    ⟨.comment, none, [.build], 25⟩,
    ⟨.backgroundLine, none, [.stop .ruleHeader, .start .background, .build], 26⟩,
    ⟨.tagLine, (some .la0), [.stop .ruleHeader, .start .scenarioDefinition, .start .tags, .build], 31⟩,
    ⟨.tagLine, none, [.stop .ruleHeader, .stop .rule, .start .rule, .start .ruleHeader, .start .tags, .build], 22⟩,
    ⟨.scenarioLine, none, [.stop .ruleHeader, .start .scenarioDefinition, .start .scenario, .build], 32⟩,
    ⟨.ruleLine, none, [.stop .ruleHeader, .stop .rule, .start .rule, .start .ruleHeader, .build], 23⟩,
    ⟨.empty, none, [.build], 25⟩]
  expected := [.eof, .comment, .backgroundLine, .tagLine, .scenarioLine, .ruleLine, .empty]
  stay := 25 }

/-- packages/gurke/src/gurke/parser.py:2048-2116 `match_token_at_26` -/
def state26 : StateRow := {
  trans := [
    ⟨.eof, none, [.stop .background, .stop .rule, .stop .feature, .build], 42⟩,
    ⟨.empty, none, [.build], 26⟩,
    ⟨.comment, none, [.build], 28⟩,
    ⟨.stepLine, none, [.start .step, .build], 29⟩,
    ⟨.tagLine, (some .la0), [.stop .background, .start .scenarioDefinition, .start .tags, .build], 31⟩,
    ⟨.tagLine, none, [.stop .background, .stop .rule, .start .rule, .start .ruleHeader, .start .tags, .build], 22⟩,
    ⟨.scenarioLine, none, [.stop .background, .start .scenarioDefinition, .start .scenario, .build], 32⟩,
    ⟨.ruleLine, none, [.stop .background, .stop .rule, .start .rule, .start .ruleHeader, .build], 23⟩,
    ⟨.other, none, [.start .description, .build], 27⟩]
  expected := [.eof, .empty, .comment, .stepLine, .tagLine, .scenarioLine, .ruleLine, .other]
  stay := 26 }

/-- packages/gurke/src/gurke/parser.py:2118-2188 `match_token_at_27` -/
def state27 : StateRow := {
  trans := [
    ⟨.eof, none, [.stop .description, .stop .background, .stop .rule, .stop .feature, .build], 42⟩,
    ⟨.comment, none, [.stop .description, .build], 28⟩,
    ⟨.stepLine, none, [.stop .description, .start .step, .build], 29⟩,
    ⟨.tagLine, (some .la0), [.stop .description, .stop .background, .start .scenarioDefinition, .start .tags, .build], 31⟩,
    ⟨.tagLine, none, [.stop .description, .stop .background, .stop .rule, .start .rule, .start .ruleHeader, .start .tags, .build], 22⟩,
    ⟨.scenarioLine, none, [.stop .description, .stop .background, .start .scenarioDefinition, .start .scenario, .build], 32⟩,
    ⟨.ruleLine, none, [.stop .description, .stop .background, .stop .rule, .start .rule, .start .ruleHeader, .build], 23⟩,
    ⟨.other, none, [.build], 27⟩]
  expected := [.eof, .comment, .stepLine, .tagLine, .scenarioLine, .ruleLine, .other]
  stay := 27 }

/-- packages/gurke/src/gurke/parser.py:2190-2253 `match_token_at_28` -/
def state28 : StateRow := {
  trans := [
    ⟨.eof, none, [.stop .background, .stop .rule, .stop .feature, .build], 42⟩,
    ⟨.comment, none, [.build], 28⟩,
    ⟨.stepLine, none, [.start .step, .build], 29⟩,
    ⟨.tagLine, (some .la0), [.stop .background, .start .scenarioDefinition, .start .tags, .build], 31⟩,
    ⟨.tagLine, none, [.stop .background, .stop .rule, .start .rule, .start .ruleHeader, .start .tags, .build], 22⟩,
    ⟨.scenarioLine, none, [.stop .background, .start .scenarioDefinition, .start .scenario, .build], 32⟩,
    ⟨.ruleLine, none, [.stop .background, .stop .rule, .start .rule, .start .ruleHeader, .build], 23⟩,
    ⟨.empty, none, [.build], 28⟩]
  expected := [.eof, .comment, .stepLine, .tagLine, .scenarioLine, .ruleLine, .empty]
  stay := 28 }

/-- packages/gurke/src/gurke/parser.py:2255-2334 `match_token_at_29` -/
def state29 : StateRow := {
  trans := [
    ⟨.eof, none, [.stop .step, .stop .background, .stop .rule, .stop .feature, .build], 42⟩,
    ⟨.tableRow, none, [.start .dataTable, .build], 30⟩,
    ⟨.docStringSeparator, none, [.start .docString, .build], 45⟩,
    ⟨.stepLine, none, [.stop .step, .start .step, .build], 29⟩,
    ⟨.tagLine, (some .la0), [.stop .step, .stop .background, .start .scenarioDefinition, .start .tags, .build], 31⟩,
    ⟨.tagLine, none, [.stop .step, .stop .background, .stop .rule, .start .rule, .start .ruleHeader, .start .tags, .build], 22⟩,
    ⟨.scenarioLine, none, [.stop .step, .stop .background, .start .scenarioDefinition, .start .scenario, .build], 32⟩,
    ⟨.ruleLine, none, [.stop .step, .stop .background, .stop .rule, .start .rule, .start .ruleHeader, .build], 23⟩,
    ⟨.comment, none, [.build], 29⟩,
    ⟨.empty, none, [.build], 29⟩]
  expected := [.eof, .tableRow, .docStringSeparator, .stepLine, .tagLine, .scenarioLine, .ruleLine, .comment, .empty]
  stay := 29 }

/-- packages/gurke/src/gurke/parser.py:2336-2415 `match_token_at_30` -/
def state30 : StateRow := {
  trans := [
    ⟨.eof, none, [.stop .dataTable, .stop .step, .stop .background, .stop .rule, .stop .feature, .build], 42⟩,
    ⟨.tableRow, none, [.build], 30⟩,
    ⟨.stepLine, none, [.stop .dataTable, .stop .step, .start .step, .build], 29⟩,
    ⟨.tagLine, (some .la0), [.stop .dataTable, .stop .step, .stop .background, .start .scenarioDefinition, .start .tags, .build], 31⟩,
    ⟨.tagLine, none, [.stop .dataTable, .stop .step, .stop .background, .stop .rule, .start .rule, .start .ruleHeader, .start .tags, .build], 22⟩,
    ⟨.scenarioLine, none, [.stop .dataTable, .stop .step, .stop .background, .start .scenarioDefinition, .start .scenario, .build], 32⟩,
    ⟨.ruleLine, none, [.stop .dataTable, .stop .step, .stop .background, .stop .rule, .start .rule, .start .ruleHeader, .build], 23⟩,
    ⟨.comment, none, [.build], 30⟩,
    ⟨.empty, none, [.build], 30⟩]
  expected := [.eof, .tableRow, .stepLine, .tagLine, .scenarioLine, .ruleLine, .comment, .empty]
  stay := 30 }

/-- packages/gurke/src/gurke/parser.py:2417-2448 `match_token_at_31` -/
def state31 : StateRow := {
  trans := [
    ⟨.tagLine, none, [.build], 31⟩,
    ⟨.scenarioLine, none, [.stop .tags, .start .scenario, .build], 32⟩,
    ⟨.comment, none, [.build], 31⟩,
    ⟨.empty, none, [.build], 31⟩]
  expected := [.tagLine, .scenarioLine, .comment, .empty]
  stay := 31 }

/-- packages/gurke/src/gurke/parser.py:2450-2534 `match_token_at_32` -/
def state32 : StateRow := {
  trans := [
    ⟨.eof, none, [.stop .scenario, .stop .scenarioDefinition, .stop .rule, .stop .feature, .build], 42⟩,
    ⟨.empty, none, [.build], 32⟩,
    ⟨.comment, none, [.build], 34⟩,
    ⟨.stepLine, none, [.start .step, .build], 35⟩,
    ⟨.tagLine, (some .la1), [.start .examplesDefinition, .start .tags, .build], 37⟩,
    ⟨.tagLine, (some .la0), [.stop .scenario, .stop .scenarioDefinition, .start .scenarioDefinition, .start .tags, .build], 31⟩,
    ⟨.tagLine, none, [.stop .scenario, .stop .scenarioDefinition, .stop .rule, .start .rule, .start .ruleHeader, .start .tags, .build], 22⟩,
    ⟨.examplesLine, none, [.start .examplesDefinition, .start .examples, .build], 38⟩,
    ⟨.scenarioLine, none, [.stop .scenario, .stop .scenarioDefinition, .start .scenarioDefinition, .start .scenario, .build], 32⟩,
    ⟨.ruleLine, none, [.stop .scenario, .stop .scenarioDefinition, .stop .rule, .start .rule, .start .ruleHeader, .build], 23⟩,
    ⟨.other, none, [.start .description, .build], 33⟩]
  expected := [.eof, .empty, .comment, .stepLine, .tagLine, .examplesLine, .scenarioLine, .ruleLine, .other]
  stay := 32 }

/-- packages/gurke/src/gurke/parser.py:2536-2624 `match_token_at_33` -/
def state33 : StateRow := {
  trans := [
    ⟨.eof, none, [.stop .description, .stop .scenario, .stop .scenarioDefinition, .stop .rule, .stop .feature, .build], 42⟩,
    ⟨.comment, none, [.stop .description, .build], 34⟩,
    ⟨.stepLine, none, [.stop .description, .start .step, .build], 35⟩,
    ⟨.tagLine, (some .la1), [.stop .description, .start .examplesDefinition, .start .tags, .build], 37⟩,
    ⟨.tagLine, (some .la0), [.stop .description, .stop .scenario, .stop .scenarioDefinition, .start .scenarioDefinition, .start .tags, .build], 31⟩,
    ⟨.tagLine, none, [.stop .description, .stop .scenario, .stop .scenarioDefinition, .stop .rule, .start .rule, .start .ruleHeader, .start .tags, .build], 22⟩,
    ⟨.examplesLine, none, [.stop .description, .start .examplesDefinition, .start .examples, .build], 38⟩,
    ⟨.scenarioLine, none, [.stop .description, .stop .scenario, .stop .scenarioDefinition, .start .scenarioDefinition, .start .scenario, .build], 32⟩,
    ⟨.ruleLine, none, [.stop .description, .stop .scenario, .stop .scenarioDefinition, .stop .rule, .start .rule, .start .ruleHeader, .build], 23⟩,
    ⟨.other, none, [.build], 33⟩]
  expected := [.eof, .comment, .stepLine, .tagLine, .examplesLine, .scenarioLine, .ruleLine, .other]
  stay := 33 }

/-- packages/gurke/src/gurke/parser.py:2626-2705 `match_token_at_34` -/
def state34 : StateRow := {
  trans := [
    ⟨.eof, none, [.stop .scenario, .stop .scenarioDefinition, .stop .rule, .stop .feature, .build], 42⟩,
    ⟨.comment, none, [.build], 34⟩,
    ⟨.stepLine, none, [.start .step, .build], 35⟩,
    ⟨.tagLine, (some .la1), [.start .examplesDefinition, .start .tags, .build], 37⟩,
    ⟨.tagLine, (some .la0), [.stop .scenario, .stop .scenarioDefinition, .start .scenarioDefinition, .start .tags, .build], 31⟩,
    ⟨.tagLine, none, [.stop .scenario, .stop .scenarioDefinition, .stop .rule, .start .rule, .start .ruleHeader, .start .tags, .build], 22⟩,
    ⟨.examplesLine, none, [.start .examplesDefinition, .start .examples, .build], 38⟩,
    ⟨.scenarioLine, none, [.stop .scenario, .stop .scenarioDefinition, .start .scenarioDefinition, .start .scenario, .build], 32⟩,
    ⟨.ruleLine, none, [.stop .scenario, .stop .scenarioDefinition, .stop .rule, .start .rule, .start .ruleHeader, .build], 23⟩,
    ⟨.empty, none, [.build], 34⟩]
  expected := [.eof, .comment, .stepLine, .tagLine, .examplesLine, .scenarioLine, .ruleLine, .empty]
  stay := 34 }

/-- packages/gurke/src/gurke/parser.py:2707-2804 `match_token_at_35` -/
def state35 : StateRow := {
  trans := [
    ⟨.eof, none, [.stop .step, .stop .scenario, .stop .scenarioDefinition, .stop .rule, .stop .feature, .build], 42⟩,
    ⟨.tableRow, none, [.start .dataTable, .build], 36⟩,
    ⟨.docStringSeparator, none, [.start .docString, .build], 43⟩,
    ⟨.stepLine, none, [.stop .step, .start .step, .build], 35⟩,
    ⟨.tagLine, (some .la1), [.stop .step, .start .examplesDefinition, .start .tags, .build], 37⟩,
    ⟨.tagLine, (some .la0), [.stop .step, .stop .scenario, .stop .scenarioDefinition, .start .scenarioDefinition, .start .tags, .build], 31⟩,
    ⟨.tagLine, none, [.stop .step, .stop .scenario, .stop .scenarioDefinition, .stop .rule, .start .rule, .start .ruleHeader, .start .tags, .build], 22⟩,
    ⟨.examplesLine, none, [.stop .step, .start .examplesDefinition, .start .examples, .build], 38⟩,
    ⟨.scenarioLine, none, [.stop .step, .stop .scenario, .stop .scenarioDefinition, .start .scenarioDefinition, .start .scenario, .build], 32⟩,
    ⟨.ruleLine, none, [.stop .step, .stop .scenario, .stop .scenarioDefinition, .stop .rule, .start .rule, .start .ruleHeader, .build], 23⟩,
    ⟨.comment, none, [.build], 35⟩,
    ⟨.empty, none, [.build], 35⟩]
  expected := [.eof, .tableRow, .docStringSeparator, .stepLine, .tagLine, .examplesLine, .scenarioLine, .ruleLine, .comment, .empty]
  stay := 35 }

/-- packages/gurke/src/gurke/parser.py:2806-2905 `match_token_at_36` -/
def state36 : StateRow := {
  trans := [
    ⟨.eof, none, [.stop .dataTable, .stop .step, .stop .scenario, .stop .scenarioDefinition, .stop .rule, .stop .feature, .build], 42⟩,
    ⟨.tableRow, none, [.build], 36⟩,
    ⟨.stepLine, none, [.stop .dataTable, .stop .step, .start .step, .build], 35⟩,
    ⟨.tagLine, (some .la1), [.stop .dataTable, .stop .step, .start .examplesDefinition, .start .tags, .build], 37⟩,
    ⟨.tagLine, (some .la0), [.stop .dataTable, .stop .step, .stop .scenario, .stop .scenarioDefinition, .start .scenarioDefinition, .start .tags, .build], 31⟩,
    ⟨.tagLine, none, [.stop .dataTable, .stop .step, .stop .scenario, .stop .scenarioDefinition, .stop .rule, .start .rule, .start .ruleHeader, .start .tags, .build], 22⟩,
    ⟨.examplesLine, none, [.stop .dataTable, .stop .step, .start .examplesDefinition, .start .examples, .build], 38⟩,
    ⟨.scenarioLine, none, [.stop .dataTable, .stop .step, .stop .scenario, .stop .scenarioDefinition, .start .scenarioDefinition, .start .scenario, .build], 32⟩,
    ⟨.ruleLine, none, [.stop .dataTable, .stop .step, .stop .scenario, .stop .scenarioDefinition, .stop .rule, .start .rule, .start .ruleHeader, .build], 23⟩,
    ⟨.comment, none, [.build], 36⟩,
    ⟨.empty, none, [.build], 36⟩]
  expected := [.eof, .tableRow, .stepLine, .tagLine, .examplesLine, .scenarioLine, .ruleLine, .comment, .empty]
  stay := 36 }

/-- packages/gurke/src/gurke/parser.py:2907-2938 `match_token_at_37` -/
def state37 : StateRow := {
  trans := [
    ⟨.tagLine, none, [.build], 37⟩,
    ⟨.examplesLine, none, [.stop .tags, .start .examples, .build], 38⟩,
    ⟨.comment, none, [.build], 37⟩,
    ⟨.empty, none, [.build], 37⟩]
  expected := [.tagLine, .examplesLine, .comment, .empty]
  stay := 37 }

/-- packages/gurke/src/gurke/parser.py:2940-3038 `match_token_at_38` -/
def state38 : StateRow := {
  trans := [
    ⟨.eof, none, [.stop .examples, .stop .examplesDefinition, .stop .scenario, .stop .scenarioDefinition, .stop .rule, .stop .feature, .build], 42⟩,
    ⟨.empty, none, [.build], 38⟩,
    ⟨.comment, none, [.build], 40⟩,
    ⟨.tableRow, none, [.start .examplesTable, .build], 41⟩,
    ⟨.tagLine, (some .la1), [.stop .examples, .stop .examplesDefinition, .start .examplesDefinition, .start .tags, .build], 37⟩,
    ⟨.tagLine, (some .la0), [.stop .examples, .stop .examplesDefinition, .stop .scenario, .stop .scenarioDefinition, .start .scenarioDefinition, .start .tags, .build], 31⟩,
    ⟨.tagLine, none, [.stop .examples, .stop .examplesDefinition, .stop .scenario, .stop .scenarioDefinition, .stop .rule, .start .rule, .start .ruleHeader, .start .tags, .build], 22⟩,
    ⟨.examplesLine, none, [.stop .examples, .stop .examplesDefinition, .start .examplesDefinition, .start .examples, .build], 38⟩,
    ⟨.scenarioLine, none, [.stop .examples, .stop .examplesDefinition, .stop .scenario, .stop .scenarioDefinition, .start .scenarioDefinition, .start .scenario, .build], 32⟩,
    ⟨.ruleLine, none, [.stop .examples, .stop .examplesDefinition, .stop .scenario, .stop .scenarioDefinition, .stop .rule, .start .rule, .start .ruleHeader, .build], 23⟩,
    ⟨.other, none, [.start .description, .build], 39⟩]
  expected := [.eof, .empty, .comment, .tableRow, .tagLine, .examplesLine, .scenarioLine, .ruleLine, .other]
  stay := 38 }

/-- packages/gurke/src/gurke/parser.py:3040-3142 `match_token_at_39` -/
def state39 : StateRow := {
  trans := [
    ⟨.eof, none, [.stop .description, .stop .examples, .stop .examplesDefinition, .stop .scenario, .stop .scenarioDefinition, .stop .rule, .stop .feature, .build], 42⟩,
    ⟨.comment, none, [.stop .description, .build], 40⟩,
    ⟨.tableRow, none, [.stop .description, .start .examplesTable, .build], 41⟩,
    ⟨.tagLine, (some .la1), [.stop .description, .stop .examples, .stop .examplesDefinition, .start .examplesDefinition, .start .tags, .build], 37⟩,
    ⟨.tagLine, (some .la0), [.stop .description, .stop .examples, .stop .examplesDefinition, .stop .scenario, .stop .scenarioDefinition, .start .scenarioDefinition, .start .tags, .build], 31⟩,
    ⟨.tagLine, none, [.stop .description, .stop .examples, .stop .examplesDefinition, .stop .scenario, .stop .scenarioDefinition, .stop .rule, .start .rule, .start .ruleHeader, .start .tags, .build], 22⟩,
    ⟨.examplesLine, none, [.stop .description, .stop .examples, .stop .examplesDefinition, .start .examplesDefinition, .start .examples, .build], 38⟩,
    ⟨.scenarioLine, none, [.stop .description, .stop .examples, .stop .examplesDefinition, .stop .scenario, .stop .scenarioDefinition, .start .scenarioDefinition, .start .scenario, .build], 32⟩,
    ⟨.ruleLine, none, [.stop .description, .stop .examples, .stop .examplesDefinition, .stop .scenario, .stop .scenarioDefinition, .stop .rule, .start .rule, .start .ruleHeader, .build], 23⟩,
    ⟨.other, none, [.build], 39⟩]
  expected := [.eof, .comment, .tableRow, .tagLine, .examplesLine, .scenarioLine, .ruleLine, .other]
  stay := 39 }

/-- packages/gurke/src/gurke/parser.py:3144-3237 `match_token_at_40` -/
def state40 : StateRow := {
  trans := [
    ⟨.eof, none, [.stop .examples, .stop .examplesDefinition, .stop .scenario, .stop .scenarioDefinition, .stop .rule, .stop .feature, .build], 42⟩,
    ⟨.comment, none, [.build], 40⟩,
    ⟨.tableRow, none, [.start .examplesTable, .build], 41⟩,
    ⟨.tagLine, (some .la1), [.stop .examples, .stop .examplesDefinition, .start .examplesDefinition, .start .tags, .build], 37⟩,
    ⟨.tagLine, (some .la0), [.stop .examples, .stop .examplesDefinition, .stop .scenario, .stop .scenarioDefinition, .start .scenarioDefinition, .start .tags, .build], 31⟩,
    ⟨.tagLine, none, [.stop .examples, .stop .examplesDefinition, .stop .scenario, .stop .scenarioDefinition, .stop .rule, .start .rule, .start .ruleHeader, .start .tags, .build], 22⟩,
    ⟨.examplesLine, none, [.stop .examples, .stop .examplesDefinition, .start .examplesDefinition, .start .examples, .build], 38⟩,
    ⟨.scenarioLine, none, [.stop .examples, .stop .examplesDefinition, .stop .scenario, .stop .scenarioDefinition, .start .scenarioDefinition, .start .scenario, .build], 32⟩,
    ⟨.ruleLine, none, [.stop .examples, .stop .examplesDefinition, .stop .scenario, .stop .scenarioDefinition, .stop .rule, .start .rule, .start .ruleHeader, .build], 23⟩,
    ⟨.empty, none, [.build], 40⟩]
  expected := [.eof, .comment, .tableRow, .tagLine, .examplesLine, .scenarioLine, .ruleLine, .empty]
  stay := 40 }

/-- packages/gurke/src/gurke/parser.py:3239-3338 `match_token_at_41` -/
def state41 : StateRow := {
  trans := [
    ⟨.eof, none, [.stop .examplesTable, .stop .examples, .stop .examplesDefinition, .stop .scenario, .stop .scenarioDefinition, .stop .rule, .stop .feature, .build], 42⟩,
    ⟨.tableRow, none, [.build], 41⟩,
    ⟨.tagLine, (some .la1), [.stop .examplesTable, .stop .examples, .stop .examplesDefinition, .start .examplesDefinition, .start .tags, .build], 37⟩,
    ⟨.tagLine, (some .la0), [.stop .examplesTable, .stop .examples, .stop .examplesDefinition, .stop .scenario, .stop .scenarioDefinition, .start .scenarioDefinition, .start .tags, .build], 31⟩,
    ⟨.tagLine, none, [.stop .examplesTable, .stop .examples, .stop .examplesDefinition, .stop .scenario, .stop .scenarioDefinition, .stop .rule, .start .rule, .start .ruleHeader, .start .tags, .build], 22⟩,
    ⟨.examplesLine, none, [.stop .examplesTable, .stop .examples, .stop .examplesDefinition, .start .examplesDefinition, .start .examples, .build], 38⟩,
    ⟨.scenarioLine, none, [.stop .examplesTable, .stop .examples, .stop .examplesDefinition, .stop .scenario, .stop .scenarioDefinition, .start .scenarioDefinition, .start .scenario, .build], 32⟩,
    ⟨.ruleLine, none, [.stop .examplesTable, .stop .examples, .stop .examplesDefinition, .stop .scenario, .stop .scenarioDefinition, .stop .rule, .start .rule, .start .ruleHeader, .build], 23⟩,
    ⟨.comment, none, [.build], 41⟩,
    ⟨.empty, none, [.build], 41⟩]
  expected := [.eof, .tableRow, .tagLine, .examplesLine, .scenarioLine, .ruleLine, .comment, .empty]
  stay := 41 }

/-- packages/gurke/src/gurke/parser.py:3340-3361 `match_token_at_43` -/
def state43 : StateRow := {
  trans := [
    ⟨.docStringSeparator, none, [.build], 44⟩,
    ⟨.other, none, [.build], 43⟩]
  expected := [.docStringSeparator, .other]
  stay := 43 }

/-- packages/gurke/src/gurke/parser.py:3363-3458 `match_token_at_44` -/
def state44 : StateRow := {
  trans := [
    ⟨.eof, none, [.stop .docString, .stop .step, .stop .scenario, .stop .scenarioDefinition, .stop .rule, .stop .feature, .build], 42⟩,
    ⟨.stepLine, none, [.stop .docString, .stop .step, .start .step, .build], 35⟩,
    ⟨.tagLine, (some .la1), [.stop .docString, .stop .step, .start .examplesDefinition, .start .tags, .build], 37⟩,
    ⟨.tagLine, (some .la0), [.stop .docString, .stop .step, .stop .scenario, .stop .scenarioDefinition, .start .scenarioDefinition, .start .tags, .build], 31⟩,
    ⟨.tagLine, none, [.stop .docString, .stop .step, .stop .scenario, .stop .scenarioDefinition, .stop .rule, .start .rule, .start .ruleHeader, .start .tags, .build], 22⟩,
    ⟨.examplesLine, none, [.stop .docString, .stop .step, .start .examplesDefinition, .start .examples, .build], 38⟩,
    ⟨.scenarioLine, none, [.stop .docString, .stop .step, .stop .scenario, .stop .scenarioDefinition, .start .scenarioDefinition, .start .scenario, .build], 32⟩,
    ⟨.ruleLine, none, [.stop .docString, .stop .step, .stop .scenario, .stop .scenarioDefinition, .stop .rule, .start .rule, .start .ruleHeader, .build], 23⟩,
    ⟨.comment, none, [.build], 44⟩,
    ⟨.empty, none, [.build], 44⟩]
  expected := [.eof, .stepLine, .tagLine, .examplesLine, .scenarioLine, .ruleLine, .comment, .empty]
  stay := 44 }

/-- packages/gurke/src/gurke/parser.py:3460-3481 `match_token_at_45` -/
def state45 : StateRow := {
  trans := [
    ⟨.docStringSeparator, none, [.build], 46⟩,
    ⟨.other, none, [.build], 45⟩]
  expected := [.docStringSeparator, .other]
  stay := 45 }

/-- packages/gurke/src/gurke/parser.py:3483-3558 `match_token_at_46` -/
def state46 : StateRow := {
  trans := [
    ⟨.eof, none, [.stop .docString, .stop .step, .stop .background, .stop .rule, .stop .feature, .build], 42⟩,
    ⟨.stepLine, none, [.stop .docString, .stop .step, .start .step, .build], 29⟩,
    ⟨.tagLine, (some .la0), [.stop .docString, .stop .step, .stop .background, .start .scenarioDefinition, .start .tags, .build], 31⟩,
    ⟨.tagLine, none, [.stop .docString, .stop .step, .stop .background, .stop .rule, .start .rule, .start .ruleHeader, .start .tags, .build], 22⟩,
    ⟨.scenarioLine, none, [.stop .docString, .stop .step, .stop .background, .start .scenarioDefinition, .start .scenario, .build], 32⟩,
    ⟨.ruleLine, none, [.stop .docString, .stop .step, .stop .background, .stop .rule, .start .rule, .start .ruleHeader, .build], 23⟩,
    ⟨.comment, none, [.build], 46⟩,
    ⟨.empty, none, [.build], 46⟩]
  expected := [.eof, .stepLine, .tagLine, .scenarioLine, .ruleLine, .comment, .empty]
  stay := 46 }

/-- packages/gurke/src/gurke/parser.py:3560-3581 `match_token_at_47` -/
def state47 : StateRow := {
  trans := [
    ⟨.docStringSeparator, none, [.build], 48⟩,
    ⟨.other, none, [.build], 47⟩]
  expected := [.docStringSeparator, .other]
  stay := 47 }

/-- packages/gurke/src/gurke/parser.py:3583-3675 `match_token_at_48` -/
def state48 : StateRow := {
  trans := [
    ⟨.eof, none, [.stop .docString, .stop .step, .stop .scenario, .stop .scenarioDefinition, .stop .feature, .build], 42⟩,
    ⟨.stepLine, none, [.stop .docString, .stop .step, .start .step, .build], 15⟩,
    ⟨.tagLine, (some .la1), [.stop .docString, .stop .step, .start .examplesDefinition, .start .tags, .build], 17⟩,
    ⟨.tagLine, (some .la0), [.stop .docString, .stop .step, .stop .scenario, .stop .scenarioDefinition, .start .scenarioDefinition, .start .tags, .build], 11⟩,
    ⟨.tagLine, none, [.stop .docString, .stop .step, .stop .scenario, .stop .scenarioDefinition, .start .rule, .start .ruleHeader, .start .tags, .build], 22⟩,
    ⟨.examplesLine, none, [.stop .docString, .stop .step, .start .examplesDefinition, .start .examples, .build], 18⟩,
    ⟨.scenarioLine, none, [.stop .docString, .stop .step, .stop .scenario, .stop .scenarioDefinition, .start .scenarioDefinition, .start .scenario, .build], 12⟩,
    ⟨.ruleLine, none, [.stop .docString, .stop .step, .stop .scenario, .stop .scenarioDefinition, .start .rule, .start .ruleHeader, .build], 23⟩,
    ⟨.comment, none, [.build], 48⟩,
    ⟨.empty, none, [.build], 48⟩]
  expected := [.eof, .stepLine, .tagLine, .examplesLine, .scenarioLine, .ruleLine, .comment, .empty]
  stay := 48 }

/-- packages/gurke/src/gurke/parser.py:3677-3698 `match_token_at_49` -/
def state49 : StateRow := {
  trans := [
    ⟨.docStringSeparator, none, [.build], 50⟩,
    ⟨.other, none, [.build], 49⟩]
  expected := [.docStringSeparator, .other]
  stay := 49 }

/-- packages/gurke/src/gurke/parser.py:3700-3772 `match_token_at_50` -/
def state50 : StateRow := {
  trans := [
    ⟨.eof, none, [.stop .docString, .stop .step, .stop .background, .stop .feature, .build], 42⟩,
    ⟨.stepLine, none, [.stop .docString, .stop .step, .start .step, .build], 9⟩,
    ⟨.tagLine, (some .la0), [.stop .docString, .stop .step, .stop .background, .start .scenarioDefinition, .start .tags, .build], 11⟩,
    ⟨.tagLine, none, [.stop .docString, .stop .step, .stop .background, .start .rule, .start .ruleHeader, .start .tags, .build], 22⟩,
    ⟨.scenarioLine, none, [.stop .docString, .stop .step, .stop .background, .start .scenarioDefinition, .start .scenario, .build], 12⟩,
    ⟨.ruleLine, none, [.stop .docString, .stop .step, .stop .background, .start .rule, .start .ruleHeader, .build], 23⟩,
    ⟨.comment, none, [.build], 50⟩,
    ⟨.empty, none, [.build], 50⟩]
  expected := [.eof, .stepLine, .tagLine, .scenarioLine, .ruleLine, .comment, .empty]
  stay := 50 }

/-- packages/gurke/src/gurke/parser.py:187-243 `Parser.match_token` dispatch (`state_map`); `none` = `RuntimeError("Unknown state")`. -/
def table : Nat → Option StateRow
  | 0 => some state0
  | 1 => some state1
  | 2 => some state2
  | 3 => some state3
  | 4 => some state4
  | 5 => some state5
  | 6 => some state6
  | 7 => some state7
  | 8 => some state8
  | 9 => some state9
  | 10 => some state10
  | 11 => some state11
  | 12 => some state12
  | 13 => some state13
  | 14 => some state14
  | 15 => some state15
  | 16 => some state16
  | 17 => some state17
  | 18 => some state18
  | 19 => some state19
  | 20 => some state20
  | 21 => some state21
  | 22 => some state22
  | 23 => some state23
  | 24 => some state24
  | 25 => some state25
  | 26 => some state26
  | 27 => some state27
  | 28 => some state28
  | 29 => some state29
  | 30 => some state30
  | 31 => some state31
  | 32 => some state32
  | 33 => some state33
  | 34 => some state34
  | 35 => some state35
  | 36 => some state36
  | 37 => some state37
  | 38 => some state38
  | 39 => some state39
  | 40 => some state40
  | 41 => some state41
  | 43 => some state43
  | 44 => some state44
  | 45 => some state45
  | 46 => some state46
  | 47 => some state47
  | 48 => some state48
  | 49 => some state49
  | 50 => some state50
  | _ => none

/-- The states listed in `state_map`. -/
def allStates : List Nat := [0, 1, 2, 3, 4, 5, 6, 7, 8, 9, 10, 11, 12, 13, 14, 15, 16, 17, 18, 19, 20, 21, 22, 23, 24, 25, 26, 27, 28, 29, 30, 31, 32, 33, 34, 35, 36, 37, 38, 39, 40, 41, 43, 44, 45, 46, 47, 48, 49, 50]

end Gherkin

import Verif.Props.C01_02
import Verif.Props.C03_07
import Verif.Props.C08_09
import Verif.Props.C10_12
import Verif.Props.C13_14
import Verif.Props.C15_18
import Verif.Props.C19_21
import Verif.Props.C22_25
import Verif.Props.C26
import Verif.Props.C27_31
import Verif.Props.C32_33
import Verif.Props.C34_36
import Verif.Props.C37_39
import Verif.Props.C40_43
import Verif.Props.C44
import Verif.Props.C62_68
import Verif.Props.C69
import Verif.Props.C45_46
import Verif.Props.C47
import Verif.Props.C48_50
import Verif.Props.C52_54
import Verif.Props.C55_57
import Verif.Props.C58
import Verif.Props.C59
import Verif.Props.C51
import Verif.Props.C60
import Verif.Props.C61
import Verif.Props.C72
import Verif.Props.C81
import Verif.Props.C83
import Verif.Props.C84
import Verif.Props.C86
import Verif.Props.C87
import Verif.Props.C88
import Verif.Props.C89
import Verif.Props.C90
import Verif.Props.C91
import Verif.Props.C92
import Verif.Props.C93
import Verif.Props.C94
import Verif.Props.C95
import Verif.Props.C96
import Verif.Props.C97
import Verif.Props.C98
import Verif.Props.C99
import Verif.Props.C100
import Verif.Props.C101
import Verif.Props.C102
import Verif.Props.C103
import Verif.Props.C104
import Verif.Props.C105
import Verif.Props.C106
import Verif.Props.C107
import Verif.Props.C108
import Verif.Props.C109
import Verif.Props.C110
import Verif.Props.C111
import Verif.Props.C112
import Verif.Props.C113
import Verif.Props.C114
import Verif.Props.C115
import Verif.Props.C116
import Verif.Props.C117
import Verif.Props.C118
import Verif.Props.C119
import Verif.Props.C120
import Verif.Props.C121
import Verif.Props.C122
import Verif.Props.C123
import Verif.Props.C124
import Verif.Props.C125
import Verif.Props.C126
import Verif.Props.C127
import Verif.Props.C128
import Verif.Props.C129
import Verif.Props.C130
import Verif.Props.C131
import Verif.Props.C132
import Verif.Props.C133
import Verif.Props.C134
import Verif.Props.C135
import Verif.Props.C136
import Verif.Props.C137
import Verif.Props.C138
import Verif.Props.C139
import Verif.Props.C140
import Verif.Props.C141
import Verif.Props.C142
import Verif.Props.C143
import Verif.Props.C144
import Verif.Props.C145
import Verif.Props.C146
import Verif.Props.C147
import Verif.Props.C148
import Verif.Props.C149
import Verif.Props.C150
import Verif.Props.C151
import Verif.Props.C152
import Verif.Props.C153
import Verif.Props.C154
import Verif.Props.C155
import Verif.Props.C156
import Verif.Props.C157
import Verif.Props.C158
import Verif.Props.C159
import Verif.Props.C160
import Verif.Props.C161
import Verif.Props.C162
